import Verif.Jsonfmt.CacheProps
import Mathlib.Data.Nat.Find

/-!
# C160: goroutines that marshal at the same time

In `CacheModel` one value is marshalled after the other.  Here any number of goroutines marshal at the same time: what they do is
cut into their accesses to the caches of the configurations, which may come in any order.
-/

namespace Verif.Jsonfmt.Cache

/-! ### Model -/

/-- What a goroutine has still to do: it returns, or does the next `Load` or `Store` of `encoderCache` or `mapKeyEncoderCache` of
a configuration (msgfmt/jsonfmt/encoder.go:58, 67, 75, 81 and 86).  Each of these is one step: `concurrent.Map` is a map with a lock
(concurrent/go_below_19.go, C47) or `sync.Map`. -/
inductive Prog (α : Type) where
  | ret (a : α)
  | loadEnc (c : Nat) (t : Ty) (k : Option Enc → Prog α)
  | storeEnc (c : Nat) (t : Ty) (e : Enc) (k : Prog α)
  | loadKey (c : Nat) (t : Ty) (k : Option KeyEnc → Prog α)
  | storeKey (c : Nat) (t : Ty) (e : KeyEnc) (k : Prog α)

/-- First the one and, with what it returns, then the other (statements in a row, as msgfmt/jsonfmt/encoder.go:85-86). -/
def Prog.bind {α β : Type} : Prog α → (α → Prog β) → Prog β
  | .ret a, f => f a
  | .loadEnc c t k, f => .loadEnc c t fun o => (k o).bind f
  | .storeEnc c t e k, f => .storeEnc c t e (k.bind f)
  | .loadKey c t k, f => .loadKey c t fun o => (k o).bind f
  | .storeKey c t e k, f => .storeKey c t e (k.bind f)

mutual
/-- `encoderOf`, msgfmt/jsonfmt/encoder.go:103-176, with `encoderOfMap` 186-195 and `encoderOfMapKey` 79-88 inlined, as `build`. -/
def buildP (cf : Config) (c : Nat) (pfx : Bytes) (t : Ty) : Prog Enc :=
  match consult cf.extensions pfx t with
  | some h => .ret (.ext h)
  | none =>
    match t with
    | .ptr t => (buildP cf c (pfx ++ asc " [ptrElem]") t).bind fun e => .ret (.ptr e)
    | .slice t => (buildP cf c (pfx ++ asc " [sliceElem]") t).bind fun e => .ret (.slice e)
    | .array _ t => (buildP cf c (pfx ++ asc " [sliceElem]") t).bind fun e => .ret (.array e)
    | .map kt vt => .loadKey c kt fun o =>
      match o with
      | some ke => (buildP cf c (pfx ++ asc " [mapElem]") vt).bind fun e => .ret (.map ke e)
      | none => (buildP cf c (pfx ++ asc " [mapKey]") kt).bind fun ek =>
          .storeKey c kt (wrapKey c pfx kt ek)
            ((buildP cf c (pfx ++ asc " [mapElem]") vt).bind fun e => .ret (.map (wrapKey c pfx kt ek) e))
    | .struct fs => (buildFieldsP cf c false fs).bind fun r => .ret (.struct r)
    | .iface => .ret .dyn
    | .func n => .ret (.plain (.unsupported (unsupportedMsg n pfx)))
    | .chan n => .ret (.plain (.unsupported (unsupportedMsg n pfx)))
    | .other n => .ret (.plain (.unsupported (unsupportedMsg n pfx)))
    | .bytes => .ret (.plain .bytes)
    | .err => .ret (.plain .err)
    | .marshaler => .ret (.plain .marshaler)
    | .bool => .ret (.plain .bool)
    | .int8 => .ret (.plain .int8)
    | .uint8 => .ret (.plain .uint8)
    | .int16 => .ret (.plain .int16)
    | .uint16 => .ret (.plain .uint16)
    | .int32 => .ret (.plain .int32)
    | .uint32 => .ret (.plain .uint32)
    | .int64 => .ret (.plain .int64)
    | .uint64 => .ret (.plain .uint64)
    | .float => .ret (.plain .float)
    | .str => .ret (.plain .str)

/-- The field loop of `encoderOfStruct`, msgfmt/jsonfmt/encoder.go:218-240, as `buildFields`. -/
def buildFieldsP (cf : Config) (c : Nat) (some : Bool) : Fields → Prog FieldEncs
  | .nil => .ret .nil
  | .cons name tag ty rest =>
    let n := getFieldName cf.unexported name tag ty
    if n = [] then (buildFieldsP cf c some rest).bind fun r => .ret (.skip r)
    else
      let pfx := (if some then [44] else []) ++ [34] ++ n ++ [34, 58]
      (buildP cf c (pfx ++ asc " ." ++ n) ty).bind fun e => (buildFieldsP cf c true rest).bind fun r => .ret (.cons pfx e r)
end

/-- `EncoderOf`, msgfmt/jsonfmt/encoder.go:65-77. -/
def encoderOfP (conf : Nat → Config) (c : Nat) (t : Ty) : Prog Enc :=
  .loadEnc c t fun o =>
    match o with
    | some e => .ret e
    | none => (buildP (conf c) c [] t).bind fun e => .storeEnc c t e (.ret e)

/-- `EncoderOfObject`, msgfmt/jsonfmt/encoder.go:56-63. -/
def encoderOfObjectP (conf : Nat → Config) (c : Nat) (t : Ty) : Prog Enc :=
  .loadEnc c t fun o =>
    match o with
    | some e => .ret e
    | none => encoderOfP conf c t

/-- `encoderOfMapKey`, msgfmt/jsonfmt/encoder.go:79-88, as called for keys that are interfaces (encoder_map.go:60-61). -/
def keyEncoderOfP (conf : Nat → Config) (c : Nat) (pfx : Bytes) (kt : Ty) : Prog KeyEnc :=
  .loadKey c kt fun o =>
    match o with
    | some ke => .ret ke
    | none => (buildP (conf c) c (pfx ++ asc " [mapKey]") kt).bind fun e =>
        .storeKey c kt (wrapKey c pfx kt e) (.ret (wrapKey c pfx kt e))

/-- The key encoders other than that for interfaces, encoder_map.go:33-52; `enc` prints the key. -/
def withKeyP (enc : Enc → Bytes → Prog Bytes) : KeyEnc → Bytes → Prog Bytes
  | .number e, space => (enc e (space ++ [34])).bind fun r => .ret (r ++ [34, 58])
  | .string e, space => (enc e space).bind fun r => .ret (r ++ [58])
  | .iface _ _, space => .ret space

mutual
/-- The `Encode` methods, as `encode` (encoder_dynamic.go:13-19 with the default configuration, encoder_map.go:59-63 with their own). -/
def encodeP (conf : Nat → Config) : Val → Enc → Bytes → Prog Bytes
  | v, .plain e, space => .ret (Jsonfmt.encode v e space)
  | v, .ext h, space => .ret (h v space)
  | .nil, .ptr _, space => .ret (space ++ [110, 117, 108, 108])
  | .ptr v, .ptr e, space => encodeP conf v e space
  | .seq vs, .slice e, space => (encodeElemsP conf vs e true (space ++ [91])).bind fun r => .ret (r ++ [93])
  | .seq vs, .array e, space => (encodeElemsP conf vs e true (space ++ [91])).bind fun r => .ret (r ++ [93])
  | .nil, .map _ _, space => .ret (space ++ [110, 117, 108, 108])
  | .map kvs, .map ke ee, space => (encodePairsP conf kvs ke ee true (space ++ [123])).bind fun r => .ret (r ++ [125])
  | .struct vs, .struct fs, space => (encodeFieldsP conf vs fs (space ++ [123])).bind fun r => .ret (r ++ [125])
  | .nil, .dyn, space => .ret (space ++ [110, 117, 108, 108])
  | .iface t v, .dyn, space => (encoderOfP conf 0 t).bind fun e => encodeP conf v e space
  | _, _, space => .ret space

/-- The loop of encoder_slice.go:18-24 / encoder_array.go:17-23. -/
def encodeElemsP (conf : Nat → Config) : Vals → Enc → Bool → Bytes → Prog Bytes
  | .nil, _, _, space => .ret space
  | .cons v vs, e, first, space =>
    (encodeP conf v e (if first then space else space ++ [44])).bind fun r => encodeElemsP conf vs e false r

/-- The loop of encoder_map.go:21-28, with the key encoder for keys that are interfaces (59-63) inlined. -/
def encodePairsP (conf : Nat → Config) : Pairs → KeyEnc → Enc → Bool → Bytes → Prog Bytes
  | .nil, _, _, _, space => .ret space
  | .cons k v ps, ke, ee, first, space =>
    let space := if first then space else space ++ [44]
    let key : Prog Bytes :=
      match ke with
      | .iface c pfx =>
        match k with
        | .iface t k => (keyEncoderOfP conf c pfx t).bind fun e => withKeyP (encodeP conf k) e space
        | _ => .ret space
      | ke => withKeyP (encodeP conf k) ke space
    key.bind fun r => (encodeP conf v ee r).bind fun r => encodePairsP conf ps ke ee false r

/-- The loop of encoder_stuct.go:21-25. -/
def encodeFieldsP (conf : Nat → Config) : Vals → FieldEncs → Bytes → Prog Bytes
  | .cons _ vs, .skip fs, space => encodeFieldsP conf vs fs space
  | .cons v vs, .cons pfx e fs, space => (encodeP conf v e (space ++ pfx)).bind fun r => encodeFieldsP conf vs fs r
  | _, _, space => .ret space
end

/-- A value is marshalled: `EncoderOfObject` of configuration `c` and `Encode`, msgfmt/jsonfmt/encoder.go:98-101. -/
def marshalP (conf : Nat → Config) (c : Nat) (t : Ty) (v : Val) : Prog Bytes :=
  (encoderOfObjectP conf c t).bind fun e => encodeP conf v e []

/-- One access to a cache (concurrent/go_below_19.go 18-29 or `sync.Map`); a goroutine that has returned does nothing more. -/
def Prog.step {α : Type} (w : World) : Prog α → Prog α × World
  | .ret a => (.ret a, w)
  | .loadEnc c t k => (k ((w c).encs t), w)
  | .storeEnc c t e k => (k, w.set c ⟨fun u => if u = t then some e else (w c).encs u, (w c).keys⟩)
  | .loadKey c t k => (k ((w c).keys t), w)
  | .storeKey c t e k => (k, w.set c ⟨(w c).encs, fun u => if u = t then some e else (w c).keys u⟩)

/-- The caches, and goroutines by number with what they have still to do. -/
structure State where
  world : World
  prog : Nat → Prog Bytes

/-- Goroutine `i` does its next access to a cache (one of those at msgfmt/jsonfmt/encoder.go:58, 67, 75, 81 and 86). -/
def State.step (s : State) (i : Nat) : State where
  world := ((s.prog i).step s.world).2
  prog j := if j = i then ((s.prog i).step s.world).1 else s.prog j

/-- All goroutines before their calls, with new configurations (msgfmt/jsonfmt/encoder.go:47-54). -/
def State.start (conf : Nat → Config) (job : Nat → Nat × Ty × Val) : State :=
  ⟨World.init, fun i => marshalP conf (job i).1 (job i).2.1 (job i).2.2⟩

/-- After `n` steps, `sched k` being the goroutine that does step `k`. -/
def State.after (sched : Nat → Nat) : Nat → State → State
  | 0, s => s
  | n + 1, s => (State.after sched n s).step (sched n)

/-- A goroutine that is alone runs to its end (msgfmt/jsonfmt/encoder.go:98-101). -/
def Prog.alone {α : Type} : Prog α → World → α × World
  | .ret a, w => (a, w)
  | .loadEnc c t k, w => (k ((w c).encs t)).alone w
  | .storeEnc c t e k, w => k.alone (w.set c ⟨fun u => if u = t then some e else (w c).encs u, (w c).keys⟩)
  | .loadKey c t k, w => (k ((w c).keys t)).alone w
  | .storeKey c t e k, w => k.alone (w.set c ⟨(w c).encs, fun u => if u = t then some e else (w c).keys u⟩)

/-! ### A goroutine relies on the caches being right, and keeps them so -/

/-- Right to remember for a type of values. -/
def EncOk (conf : Nat → Config) (c : Nat) (t : Ty) (e : Enc) : Prop := KeysOk (hooked (conf c)) t → strip e = fresh (conf c) c [] t

/-- Right to remember for a type of keys. -/
def KeyEncOk (conf : Nat → Config) (c : Nat) (t : Ty) (e : KeyEnc) : Prop :=
  Clean (hooked (conf c)) t → stripKey e = freshKey (conf c) c t

/-- As long as what it finds is right, what it stores is right, and what it returns satisfies `Q`. -/
def Sound (conf : Nat → Config) {α : Type} (Q : α → Prop) : Prog α → Prop
  | .ret a => Q a
  | .loadEnc c t k => ∀ o : Option Enc, (∀ e, o = some e → EncOk conf c t e) → Sound conf Q (k o)
  | .storeEnc c t e k => EncOk conf c t e ∧ Sound conf Q k
  | .loadKey c t k => ∀ o : Option KeyEnc, (∀ e, o = some e → KeyEncOk conf c t e) → Sound conf Q (k o)
  | .storeKey c t e k => KeyEncOk conf c t e ∧ Sound conf Q k

theorem Sound.mono {conf : Nat → Config} {α : Type} {P Q : α → Prop} (hpq : ∀ a, P a → Q a) :
    ∀ {p : Prog α}, Sound conf P p → Sound conf Q p
  | .ret a, h => hpq a h
  | .loadEnc _ _ k, h => fun o ho => Sound.mono hpq (p := k o) (h o ho)
  | .storeEnc _ _ _ k, h => ⟨h.1, Sound.mono hpq (p := k) h.2⟩
  | .loadKey _ _ k, h => fun o ho => Sound.mono hpq (p := k o) (h o ho)
  | .storeKey _ _ _ k, h => ⟨h.1, Sound.mono hpq (p := k) h.2⟩

theorem Sound.bind {conf : Nat → Config} {α β : Type} {P : α → Prop} {Q : β → Prop} {f : α → Prog β} :
    ∀ {p : Prog α}, Sound conf P p → (∀ a, P a → Sound conf Q (f a)) → Sound conf Q (p.bind f)
  | .ret a, h, hf => hf a h
  | .loadEnc _ _ k, h, hf => fun o ho => Sound.bind (p := k o) (h o ho) hf
  | .storeEnc _ _ _ k, h, hf => ⟨h.1, Sound.bind (p := k) h.2 hf⟩
  | .loadKey _ _ k, h, hf => fun o ho => Sound.bind (p := k o) (h o ho) hf
  | .storeKey _ _ _ k, h, hf => ⟨h.1, Sound.bind (p := k) h.2 hf⟩

section
variable (conf : Nat → Config) (hp : ∀ c, PathFree (conf c))
include hp

mutual
theorem buildP_sound (c : Nat) (t : Ty) (pfx : Bytes) :
    Sound conf (fun e => KeysOk (hooked (conf c)) t → strip e = fresh (conf c) c pfx t) (buildP (conf c) c pfx t) := by
  cases hh : hook (conf c) t with
  | some x =>
    rw [buildP.eq_def, consult_free (conf c) (hp c), hh]
    intro _
    rw [fresh.eq_def, hh]; rfl
  | none =>
    have no : ¬ hooked (conf c) t = true := by simp [hooked, hh]
    have hcon : consult (conf c).extensions pfx t = none := by rw [consult_free (conf c) (hp c), hh]
    cases t with
    | ptr t =>
      simp only [buildP, hcon, fresh, hh]
      refine (buildP_sound c t _).bind fun e he h => ?_
      rw [KeysOk] at h
      rw [strip, he (h.resolve_left no)]
    | slice t =>
      simp only [buildP, hcon, fresh, hh]
      refine (buildP_sound c t _).bind fun e he h => ?_
      rw [KeysOk] at h
      rw [strip, he (h.resolve_left no)]
    | array n t =>
      simp only [buildP, hcon, fresh, hh]
      refine (buildP_sound c t _).bind fun e he h => ?_
      rw [KeysOk] at h
      rw [strip, he (h.resolve_left no)]
    | map kt vt =>
      simp only [buildP, hcon, fresh, hh]
      intro o ho
      cases o with
      | some ke =>
        refine (buildP_sound c vt _).bind fun e he h => ?_
        rw [KeysOk] at h
        obtain ⟨h1, h2⟩ := h.resolve_left no
        rw [strip, he h2, ho ke rfl h1]; rfl
      | none =>
        refine (buildP_sound c kt _).bind fun ek hk => ?_
        have hke : KeyEncOk conf c kt (wrapKey c pfx kt ek) := by
          intro h
          rw [strip_wrap, hk (clean_keysOk _ _ h), fresh_prefix (conf c) c kt h _ []]; rfl
        refine ⟨hke, (buildP_sound c vt _).bind fun e he h => ?_⟩
        rw [KeysOk] at h
        obtain ⟨h1, h2⟩ := h.resolve_left no
        rw [strip, he h2, hke h1]; rfl
    | struct fs =>
      simp only [buildP, hcon, fresh, hh]
      refine (buildFieldsP_sound c fs false).bind fun r hr h => ?_
      rw [KeysOk] at h
      rw [strip, hr (h.resolve_left no)]
    | _ => simp only [buildP, hcon, fresh, hh]; exact fun _ => rfl
termination_by structural t
theorem buildFieldsP_sound (c : Nat) (fs : Fields) (any : Bool) :
    Sound conf (fun r => KeysOkFields (hooked (conf c)) fs → stripFields r = freshFields (conf c) c any fs) (buildFieldsP (conf c) c any fs) := by
  cases fs with
  | nil => exact fun _ => rfl
  | cons name tag ty rest =>
    simp only [buildFieldsP, freshFields, KeysOkFields]
    by_cases hn : getFieldName (conf c).unexported name tag ty = []
    · simp only [hn, if_true]
      refine (buildFieldsP_sound c rest any).bind fun r hr h => ?_
      rw [stripFields, hr h.2]
    · simp only [hn, if_false]
      refine (buildP_sound c ty _).bind fun e he => (buildFieldsP_sound c rest true).bind fun r hr h => ?_
      rw [stripFields, he h.1, hr h.2]
termination_by structural fs
end

theorem encoderOfP_sound (c : Nat) (t : Ty) : Sound conf (EncOk conf c t) (encoderOfP conf c t) := by
  intro o ho
  cases o with
  | some e => exact ho e rfl
  | none => exact (buildP_sound conf hp c t []).bind fun e he => ⟨he, he⟩

theorem encoderOfObjectP_sound (c : Nat) (t : Ty) : Sound conf (EncOk conf c t) (encoderOfObjectP conf c t) := by
  intro o ho
  cases o with
  | some e => exact ho e rfl
  | none => exact encoderOfP_sound conf hp c t

theorem keyEncoderOfP_sound (c : Nat) (pfx : Bytes) (kt : Ty) : Sound conf (KeyEncOk conf c kt) (keyEncoderOfP conf c pfx kt) := by
  intro o ho
  cases o with
  | some e => exact ho e rfl
  | none =>
    refine (buildP_sound conf hp c kt _).bind fun e he => ?_
    have hke : KeyEncOk conf c kt (wrapKey c pfx kt e) := by
      intro h
      rw [strip_wrap, he (clean_keysOk _ _ h), fresh_prefix (conf c) c kt h _ []]; rfl
    exact ⟨hke, hke⟩

omit hp in
theorem withKeyP_sound (k : Val) (ih : ∀ e space, Sound conf (fun b => ValOk k → b = text conf k (strip e) space) (encodeP conf k e space))
    (ke : KeyEnc) (space : Bytes) :
    Sound conf (fun b => ValOk k → b = keyText (text conf k) (stripKey ke) space) (withKeyP (encodeP conf k) ke space) := by
  cases ke with
  | number e => exact (ih e _).bind fun b hb hv => by rw [hb hv]; rfl
  | string e => exact (ih e _).bind fun b hb hv => by rw [hb hv]; rfl
  | iface c p => exact fun _ => rfl

mutual
theorem encodeP_sound (v : Val) (e : Enc) (space : Bytes) :
    Sound conf (fun b => ValOk v → b = text conf v (strip e) space) (encodeP conf v e space) := by
  cases v with
  | nil => cases e <;> simp only [encodeP, text, strip] <;> exact fun _ => rfl
  | ptr v =>
    cases e with
    | ptr e => simp only [encodeP, text, strip, ValOk]; exact encodeP_sound v e space
    | _ => simp only [encodeP, text, strip] <;> exact fun _ => rfl
  | seq vs =>
    cases e with
    | slice e =>
      simp only [encodeP, text, strip, ValOk]
      exact (encodeElemsP_sound vs e true _).bind fun b hb hv => by rw [hb hv]
    | array e =>
      simp only [encodeP, text, strip, ValOk]
      exact (encodeElemsP_sound vs e true _).bind fun b hb hv => by rw [hb hv]
    | _ => simp only [encodeP, text, strip] <;> exact fun _ => rfl
  | map ps =>
    cases e with
    | map ke ee =>
      simp only [encodeP, text, strip, ValOk]
      exact (encodePairsP_sound ps ke ee true _).bind fun b hb hv => by rw [hb hv]
    | _ => simp only [encodeP, text, strip] <;> exact fun _ => rfl
  | struct vs =>
    cases e with
    | struct fs =>
      simp only [encodeP, text, strip, ValOk]
      exact (encodeFieldsP_sound vs fs _).bind fun b hb hv => by rw [hb hv]
    | _ => simp only [encodeP, text, strip] <;> exact fun _ => rfl
  | iface t v =>
    cases e with
    | dyn =>
      simp only [encodeP, text, strip, ValOk]
      refine (encoderOfP_sound conf hp 0 t).bind fun e he => ?_
      exact (encodeP_sound v e space).mono fun b hb hv => by rw [hb hv.2, he (keysOk_mono _ _ hv.1)]
    | _ => simp only [encodeP, text, strip] <;> exact fun _ => rfl
  | _ => cases e <;> simp only [encodeP, text, strip] <;> exact fun _ => rfl
termination_by structural v
theorem encodeElemsP_sound (vs : Vals) (e : Enc) (first : Bool) (space : Bytes) :
    Sound conf (fun b => ValsOk vs → b = textElems conf vs (strip e) first space) (encodeElemsP conf vs e first space) := by
  cases vs with
  | nil => exact fun _ => rfl
  | cons v vs =>
    simp only [encodeElemsP, textElems, ValsOk]
    exact (encodeP_sound v e _).bind fun r hr => (encodeElemsP_sound vs e false r).mono fun b hb hv => by rw [hb hv.2, hr hv.1]
termination_by structural vs
theorem encodePairsP_sound (ps : Pairs) (ke : KeyEnc) (ee : Enc) (first : Bool) (space : Bytes) :
    Sound conf (fun b => PairsOk ps → b = textPairs conf ps (stripKey ke) (strip ee) first space) (encodePairsP conf ps ke ee first space) := by
  cases ps with
  | nil => exact fun _ => rfl
  | cons k v ps =>
    have go : ∀ (key : Prog Bytes) (s : Bytes), Sound conf (fun b => KeyOk k → ValOk k → b = s) key →
        Sound conf (fun b => PairsOk (.cons k v ps) → b = textPairs conf ps (stripKey ke) (strip ee) false (text conf v (strip ee) s))
          (key.bind fun r => (encodeP conf v ee r).bind fun r => encodePairsP conf ps ke ee false r) := by
      intro key s hkey
      refine hkey.bind fun r hr => (encodeP_sound v ee r).bind fun r2 hr2 => (encodePairsP_sound ps ke ee false r2).mono fun b hb hv => ?_
      rw [PairsOk] at hv
      rw [hb hv.2.2.2, hr2 hv.2.2.1, hr hv.1 hv.2.1]
    cases ke with
    | number e => exact go _ _ ((withKeyP_sound conf k (encodeP_sound k) _ _).mono fun b hb _ hv => hb hv)
    | string e => exact go _ _ ((withKeyP_sound conf k (encodeP_sound k) _ _).mono fun b hb _ hv => hb hv)
    | iface c pfx =>
      cases k with
      | iface t k =>
        refine go _ _ ?_
        refine (keyEncoderOfP_sound conf hp c pfx t).bind fun e he => (withKeyP_sound conf k (encodeP_sound k) e _).mono fun b hb hk hv => ?_
        rw [KeyOk] at hk
        rw [ValOk] at hv
        rw [hb hv.2, he (clean_mono _ _ hk)]; rfl
      | _ => exact go _ _ (fun _ _ => rfl)
termination_by structural ps
theorem encodeFieldsP_sound (vs : Vals) (fs : FieldEncs) (space : Bytes) :
    Sound conf (fun b => ValsOk vs → b = textFields conf vs (stripFields fs) space) (encodeFieldsP conf vs fs space) := by
  cases vs with
  | nil => cases fs <;> exact fun _ => rfl
  | cons v vs =>
    cases fs with
    | nil => exact fun _ => rfl
    | skip fs =>
      simp only [encodeFieldsP, textFields, stripFields, ValsOk]
      exact (encodeFieldsP_sound vs fs space).mono fun b hb hv => hb hv.2
    | cons p e fs =>
      simp only [encodeFieldsP, textFields, stripFields, ValsOk]
      exact (encodeP_sound v e _).bind fun r hr => (encodeFieldsP_sound vs fs r).mono fun b hb hv => by rw [hb hv.2, hr hv.1]
termination_by structural vs
end

theorem marshalP_sound (c : Nat) (t : Ty) (v : Val) :
    Sound conf (fun b => KeysOk (hooked (conf c)) t → ValOk v → b = text conf v (fresh (conf c) c [] t) []) (marshalP conf c t v) :=
  (encoderOfObjectP_sound conf hp c t).bind fun e he => (encodeP_sound conf hp v e []).mono fun b hb ht hv => by rw [hb hv, he ht]
end

/-! ### Interleavings -/

/-- Everything remembered is right. -/
def WorldOk (conf : Nat → Config) (w : World) : Prop :=
  ∀ c, (∀ t e, (w c).encs t = some e → EncOk conf c t e) ∧ ∀ t e, (w c).keys t = some e → KeyEncOk conf c t e

theorem step_sound {conf : Nat → Config} {α : Type} {Q : α → Prop} (w : World) (p : Prog α) (hw : WorldOk conf w) (h : Sound conf Q p) :
    Sound conf Q (p.step w).1 ∧ WorldOk conf (p.step w).2 := by
  cases p with
  | ret a => exact ⟨h, hw⟩
  | loadEnc c t k => exact ⟨h _ fun e he => (hw c).1 t e he, hw⟩
  | loadKey c t k => exact ⟨h _ fun e he => (hw c).2 t e he, hw⟩
  | storeEnc c t e k =>
    refine ⟨h.2, fun d => ?_⟩
    by_cases hd : d = c
    · subst hd
      simp only [Prog.step, World.set, if_true]
      refine ⟨fun u x hx => ?_, (hw d).2⟩
      by_cases hu : u = t
      · subst hu; simp only [if_true, Option.some.injEq] at hx; exact hx ▸ h.1
      · simp only [hu, if_false] at hx; exact (hw d).1 u x hx
    · simp only [Prog.step, World.set, hd, if_false]; exact hw d
  | storeKey c t e k =>
    refine ⟨h.2, fun d => ?_⟩
    by_cases hd : d = c
    · subst hd
      simp only [Prog.step, World.set, if_true]
      refine ⟨(hw d).1, fun u x hx => ?_⟩
      by_cases hu : u = t
      · subst hu; simp only [if_true, Option.some.injEq] at hx; exact hx ▸ h.1
      · simp only [hu, if_false] at hx; exact (hw d).2 u x hx
    · simp only [Prog.step, World.set, hd, if_false]; exact hw d

theorem after_sound {conf : Nat → Config} {Q : Nat → Bytes → Prop} (sched : Nat → Nat) (n : Nat) (s : State) (hw : WorldOk conf s.world)
    (h : ∀ i, Sound conf (Q i) (s.prog i)) :
    WorldOk conf (State.after sched n s).world ∧ ∀ i, Sound conf (Q i) ((State.after sched n s).prog i) := by
  induction n with
  | zero => exact ⟨hw, h⟩
  | succ n ih =>
    have hs := step_sound _ _ ih.1 (ih.2 (sched n))
    refine ⟨hs.2, fun i => ?_⟩
    simp only [State.after, State.step]
    by_cases hi : i = sched n
    · subst hi; simp only [if_true]; exact hs.1
    · simp only [hi, if_false]; exact ih.2 i

theorem after_add (sched : Nat → Nat) (n m : Nat) (s : State) :
    State.after sched (n + m) s = State.after (fun k => sched (n + k)) m (State.after sched n s) := by
  induction m with
  | zero => rfl
  | succ m ih => show (State.after sched (n + m) s).step _ = _; rw [ih]; rfl

/-- Others do not touch what a goroutine has still to do. -/
theorem after_others (sched : Nat → Nat) (i m : Nat) (s : State) (h : ∀ k < m, sched k ≠ i) :
    (State.after sched m s).prog i = s.prog i := by
  induction m with
  | zero => rfl
  | succ m ih =>
    simp only [State.after, State.step]
    rw [if_neg (Ne.symm (h m (by omega))), ih (fun k hk => h k (by omega))]

theorem ends_from (i : Nat) : ∀ (p : Prog Bytes) (sched : Nat → Nat) (s : State), s.prog i = p → (∀ n, ∃ m, n ≤ m ∧ sched m = i) →
    ∃ n b, (State.after sched n s).prog i = .ret b := by
  have turn : ∀ (sched : Nat → Nat) (s : State), (∀ n, ∃ m, n ≤ m ∧ sched m = i) →
      ∃ m w, (State.after sched (m + 1) s).prog i = ((s.prog i).step w).1 := by
    intro sched s hf
    have hex : ∃ m, sched m = i := let ⟨m, _, h⟩ := hf 0; ⟨m, h⟩
    classical
    refine ⟨Nat.find hex, (State.after sched (Nat.find hex) s).world, ?_⟩
    simp only [State.after, State.step, Nat.find_spec hex, if_true]
    rw [after_others sched i _ s (fun k hk => Nat.find_min hex hk)]
  have later : ∀ (sched : Nat → Nat) (k : Nat), (∀ n, ∃ m, n ≤ m ∧ sched m = i) → ∀ n, ∃ m, n ≤ m ∧ sched (k + m) = i := by
    intro sched k hf n
    obtain ⟨m, hm, h⟩ := hf (k + n)
    exact ⟨m - k, by omega, by rw [show k + (m - k) = m by omega]; exact h⟩
  intro p
  induction p with
  | ret b => exact fun sched s hs _ => ⟨0, b, hs⟩
  | loadEnc c t k ih =>
    intro sched s hs hf
    obtain ⟨m, w, h⟩ := turn sched s hf
    rw [hs] at h
    obtain ⟨n, b, hn⟩ := ih _ (fun k => sched (m + 1 + k)) _ h (later sched _ hf)
    exact ⟨m + 1 + n, b, by rw [after_add]; exact hn⟩
  | loadKey c t k ih =>
    intro sched s hs hf
    obtain ⟨m, w, h⟩ := turn sched s hf
    rw [hs] at h
    obtain ⟨n, b, hn⟩ := ih _ (fun k => sched (m + 1 + k)) _ h (later sched _ hf)
    exact ⟨m + 1 + n, b, by rw [after_add]; exact hn⟩
  | storeEnc c t e k ih =>
    intro sched s hs hf
    obtain ⟨m, w, h⟩ := turn sched s hf
    rw [hs] at h
    obtain ⟨n, b, hn⟩ := ih (fun k => sched (m + 1 + k)) _ h (later sched _ hf)
    exact ⟨m + 1 + n, b, by rw [after_add]; exact hn⟩
  | storeKey c t e k ih =>
    intro sched s hs hf
    obtain ⟨m, w, h⟩ := turn sched s hf
    rw [hs] at h
    obtain ⟨n, b, hn⟩ := ih (fun k => sched (m + 1 + k)) _ h (later sched _ hf)
    exact ⟨m + 1 + n, b, by rw [after_add]; exact hn⟩

/-! ### The pieces in a row are the calls of `CacheModel` -/

theorem alone_bind {α β : Type} (f : α → Prog β) : ∀ (p : Prog α) (w : World), (p.bind f).alone w = (f (p.alone w).1).alone (p.alone w).2
  | .ret _, _ => rfl
  | .loadEnc _ _ k, w => alone_bind f (k _) w
  | .storeEnc _ _ _ k, _ => alone_bind f k _
  | .loadKey _ _ k, w => alone_bind f (k _) w
  | .storeKey _ _ _ k, _ => alone_bind f k _

theorem set_self (w : World) (c : Nat) : w.set c ⟨(w c).encs, (w c).keys⟩ = w := by
  funext d; simp only [World.set]; split <;> simp_all

theorem set_set (w : World) (c : Nat) (x y : Caches) : (w.set c x).set c y = w.set c y := by
  funext d; simp only [World.set]; split <;> rfl

theorem set_at (w : World) (c : Nat) (x : Caches) : (w.set c x) c = x := by simp [World.set]

mutual
theorem buildP_alone (cf : Config) (c : Nat) (t : Ty) (pfx : Bytes) (w : World) :
    (buildP cf c pfx t).alone w =
      ((build cf c pfx t (w c).keys).1, w.set c ⟨(w c).encs, (build cf c pfx t (w c).keys).2⟩) := by
  cases hcon : consult cf.extensions pfx t with
  | some x =>
    rw [buildP.eq_def, build.eq_def, hcon]
    exact congrArg (Prod.mk _) (set_self w c).symm
  | none =>
    cases t with
    | ptr t => simp only [buildP, build, hcon, alone_bind, buildP_alone cf c t]; rfl
    | slice t => simp only [buildP, build, hcon, alone_bind, buildP_alone cf c t]; rfl
    | array n t => simp only [buildP, build, hcon, alone_bind, buildP_alone cf c t]; rfl
    | map kt vt =>
      simp only [buildP, build, hcon, Prog.alone]
      cases hk : (w c).keys kt with
      | some ke => simp only [alone_bind, buildP_alone cf c vt, Prog.alone]
      | none =>
        simp only [alone_bind, buildP_alone cf c vt, buildP_alone cf c kt, Prog.alone, set_set, set_at]
    | struct fs => simp only [buildP, build, hcon, alone_bind, buildFieldsP_alone cf c fs]; rfl
    | _ => simp only [buildP, build, hcon, Prog.alone, set_self]
termination_by structural t
theorem buildFieldsP_alone (cf : Config) (c : Nat) (fs : Fields) (any : Bool) (w : World) :
    (buildFieldsP cf c any fs).alone w =
      ((buildFields cf c any fs (w c).keys).1, w.set c ⟨(w c).encs, (buildFields cf c any fs (w c).keys).2⟩) := by
  cases fs with
  | nil => simp only [buildFieldsP, buildFields, Prog.alone, set_self]
  | cons name tag ty rest =>
    simp only [buildFieldsP, buildFields]
    by_cases hn : getFieldName cf.unexported name tag ty = []
    · simp only [hn, if_true, alone_bind, buildFieldsP_alone cf c rest, Prog.alone]
    · simp only [hn, if_false, alone_bind, buildFieldsP_alone cf c rest, buildP_alone cf c ty, Prog.alone, set_set, set_at]
termination_by structural fs
end

theorem encoderOfP_alone (conf : Nat → Config) (c : Nat) (t : Ty) (w : World) : (encoderOfP conf c t).alone w = encoderOf conf c t w := by
  simp only [encoderOfP, encoderOf, Prog.alone]
  cases h : (w c).encs t with
  | some e => rfl
  | none => simp only [alone_bind, buildP_alone, Prog.alone, set_set, set_at]

theorem encoderOfObjectP_alone (conf : Nat → Config) (c : Nat) (t : Ty) (w : World) :
    (encoderOfObjectP conf c t).alone w = encoderOf conf c t w := by
  simp only [encoderOfObjectP, Prog.alone]
  cases h : (w c).encs t with
  | some e => simp only [encoderOf, h, Prog.alone]
  | none => exact encoderOfP_alone conf c t w

theorem keyEncoderOfP_alone (conf : Nat → Config) (c : Nat) (pfx : Bytes) (t : Ty) (w : World) :
    (keyEncoderOfP conf c pfx t).alone w = keyEncoderOf conf c pfx t w := by
  simp only [keyEncoderOfP, keyEncoderOf, Prog.alone]
  cases h : (w c).keys t with
  | some e => rfl
  | none => simp only [alone_bind, buildP_alone, Prog.alone, set_set, set_at]

theorem withKeyP_alone (conf : Nat → Config) (k : Val) (ih : ∀ e s w, (encodeP conf k e s).alone w = encode conf k e s w) (ke : KeyEnc)
    (s : Bytes) (w : World) : (withKeyP (encodeP conf k) ke s).alone w = withKey (encode conf k) ke s w := by
  cases ke with
  | number e => simp only [withKeyP, withKey, alone_bind, ih, Prog.alone]
  | string e => simp only [withKeyP, withKey, alone_bind, ih, Prog.alone]
  | iface c p => rfl

mutual
theorem encodeP_alone (conf : Nat → Config) (v : Val) (e : Enc) (s : Bytes) (w : World) :
    (encodeP conf v e s).alone w = encode conf v e s w := by
  cases v with
  | nil => cases e <;> simp only [encodeP, encode, Prog.alone]
  | ptr v =>
    cases e with
    | ptr e => simp only [encodeP, encode]; exact encodeP_alone conf v e s w
    | _ => simp only [encodeP, encode, Prog.alone]
  | seq vs => cases e <;> simp only [encodeP, encode, alone_bind, encodeElemsP_alone conf vs, Prog.alone]
  | map ps => cases e <;> simp only [encodeP, encode, alone_bind, encodePairsP_alone conf ps, Prog.alone]
  | struct vs => cases e <;> simp only [encodeP, encode, alone_bind, encodeFieldsP_alone conf vs, Prog.alone]
  | iface t v => cases e <;> simp only [encodeP, encode, alone_bind, encoderOfP_alone, encodeP_alone conf v, Prog.alone]
  | _ => cases e <;> simp only [encodeP, encode, Prog.alone]
termination_by structural v
theorem encodeElemsP_alone (conf : Nat → Config) (vs : Vals) (e : Enc) (first : Bool) (s : Bytes) (w : World) :
    (encodeElemsP conf vs e first s).alone w = encodeElems conf vs e first s w := by
  cases vs with
  | nil => rfl
  | cons v vs => simp only [encodeElemsP, encodeElems, alone_bind, encodeP_alone conf v, encodeElemsP_alone conf vs]
termination_by structural vs
theorem encodePairsP_alone (conf : Nat → Config) (ps : Pairs) (ke : KeyEnc) (ee : Enc) (first : Bool) (s : Bytes) (w : World) :
    (encodePairsP conf ps ke ee first s).alone w = encodePairs conf ps ke ee first s w := by
  cases ps with
  | nil => rfl
  | cons k v ps =>
    have go : ∀ (key : Prog Bytes) (r : Bytes × World), key.alone w = r →
        (key.bind fun r => (encodeP conf v ee r).bind fun r => encodePairsP conf ps ke ee false r).alone w =
          encodePairs conf ps ke ee false (encode conf v ee r.1 r.2).1 (encode conf v ee r.1 r.2).2 := by
      intro key r h
      rw [alone_bind, alone_bind, h, encodeP_alone conf v, encodePairsP_alone conf ps]
    cases ke with
    | number e => exact go _ _ (withKeyP_alone conf k (encodeP_alone conf k) _ _ w)
    | string e => exact go _ _ (withKeyP_alone conf k (encodeP_alone conf k) _ _ w)
    | iface c p =>
      cases k with
      | iface t k =>
        refine go _ _ ?_
        rw [alone_bind, keyEncoderOfP_alone]
        exact withKeyP_alone conf k (encodeP_alone conf k) _ _ _
      | _ => exact go _ _ rfl
termination_by structural ps
theorem encodeFieldsP_alone (conf : Nat → Config) (vs : Vals) (fs : FieldEncs) (s : Bytes) (w : World) :
    (encodeFieldsP conf vs fs s).alone w = encodeFields conf vs fs s w := by
  cases vs with
  | nil => cases fs <;> rfl
  | cons v vs => cases fs <;> simp only [encodeFieldsP, encodeFields, alone_bind, encodeP_alone conf v, encodeFieldsP_alone conf vs, Prog.alone]
termination_by structural vs
end

/-- C160: a call whose accesses to the caches come in a row is the call of `CacheModel`. -/
theorem alone_marshal (conf : Nat → Config) (c : Nat) (t : Ty) (v : Val) (w : World) :
    (marshalP conf c t v).alone w = marshal conf c t v w := by
  simp only [marshalP, marshal, alone_bind, encoderOfObjectP_alone, encodeP_alone]

/-! ### C160 -/

/-- C160 (partial): whatever other goroutines marshal at the same time, with whatever configurations, a call that has returned has
returned what it returns when nothing else was ever marshalled.  Missing: as in `history_free_partial`. -/
theorem together_partial (conf : Nat → Config) (hp : ∀ c, PathFree (conf c)) (job : Nat → Nat × Ty × Val) (sched : Nat → Nat) (n i c : Nat)
    (t : Ty) (v : Val) (hj : job i = (c, t, v)) (ht : KeysOk (hooked (conf c)) t) (hv : ValOk v) (b : Bytes)
    (hb : (State.after sched n (State.start conf job)).prog i = .ret b) : b = (marshal conf c t v World.init).1 := by
  have hs := (after_sound (conf := conf)
    (Q := fun i b => KeysOk (hooked (conf (job i).1)) (job i).2.1 → ValOk (job i).2.2 →
      b = text conf (job i).2.2 (fresh (conf (job i).1) (job i).1 [] (job i).2.1) []) sched n (State.start conf job)
    (fun c => ⟨fun t e h => by simp [State.start, World.init] at h, fun t e h => by simp [State.start, World.init] at h⟩)
    (fun i => marshalP_sound conf hp _ _ _)).2 i
  rw [hb, Sound, hj] at hs
  rw [hs ht hv, (marshal_text conf hp c t v _ (good_init conf)).2 ht hv]

/-- C160: every call returns, if its goroutine goes on being run: no goroutine waits for another. -/
theorem together_ends (conf : Nat → Config) (job : Nat → Nat × Ty × Val) (sched : Nat → Nat) (i : Nat)
    (hf : ∀ n, ∃ m, n ≤ m ∧ sched m = i) : ∃ n b, (State.after sched n (State.start conf job)).prog i = .ret b :=
  ends_from i _ sched _ rfl hf

/-- C160 (partial): without extensions this is the text of the model without caches (C16 to C19).  Missing: as in
`history_free_partial`. -/
theorem together_transparent_partial (conf : Nat → Config) (hp : ∀ c, PathFree (conf c)) (h0 : conf 0 = ⟨false, []⟩)
    (job : Nat → Nat × Ty × Val) (sched : Nat → Nat) (i c : Nat) (u : Bool) (hc : conf c = ⟨u, []⟩) (t : Ty) (v : Val)
    (hj : job i = (c, t, v)) (ht : KeysOk (fun _ => false) t) (hv : ValOk v) (hf : ∀ n, ∃ m, n ≤ m ∧ sched m = i) :
    ∃ n, (State.after sched n (State.start conf job)).prog i = .ret (Jsonfmt.encode v (Jsonfmt.encoderOf u [] t) []) := by
  obtain ⟨n, b, hb⟩ := together_ends conf job sched i hf
  refine ⟨n, ?_⟩
  rw [hb, together_partial conf hp job sched n i c t v hj (by rw [hc, not_hooked]; exact ht) hv b hb]
  exact congrArg _ (caches_transparent_partial conf hp h0 [] c u hc t v ht hv)

/-- Two goroutines marshal maps of one type, in turn. -/
def twoJobs : Nat → Nat × Ty × Val := fun i => (0, .slice (.map .iface .bool), .seq (.cons (ifaceMap [97 + UInt8.ofNat i] (.bool true)) .nil))

example : (∀ c, PathFree (plainConf c)) ∧ KeysOk (hooked (plainConf 0)) (twoJobs 1).2.1 ∧ ValOk (twoJobs 1).2.2 ∧
    ∀ n, ∃ m, n ≤ m ∧ m % 2 = 1 := by
  refine ⟨fun c x hx => by simp [plainConf] at hx, ?_, ?_, fun n => ⟨2 * n + 1, by omega, by omega⟩⟩
  · simp [KeysOk, Clean, hooked, hook, plainConf, twoJobs]
  · simp [ValOk, ValsOk, PairsOk, KeyOk, KeysOk, Clean, ifaceMap, twoJobs]

/-- What has been returned. -/
def result : Prog Bytes → Option Bytes
  | .ret b => some b
  | _ => none

/-- Both find no encoder, both build one, and both store it; each returns its own text. -/
example :
    let s := State.after (· % 2) 14 (State.start plainConf twoJobs)
    result (s.prog 0) = some (asc "[{\"a\":true}]") ∧ result (s.prog 1) = some (asc "[{\"b\":true}]") ∧
    result ((State.after (· % 2) 13 (State.start plainConf twoJobs)).prog 1) = none := by decide +kernel

/-- C160, negation: what a call returns for keys that cannot be encoded depends on which call comes first. -/
theorem chan_key_race :
    let job : Nat → Nat × Ty × Val := fun i =>
      if i = 0 then (0, .map (.chan (asc "chan int")) .bool, .map (.cons .nil (.bool true) .nil))
      else (0, .slice (.map (.chan (asc "chan int")) .bool), .seq .nil)
    result ((State.after (fun k => if k < 10 then 0 else 1) 20 (State.start plainConf job)).prog 0) =
      some (asc "{\"\"can not encode chan int  [mapKey] to json\"\":true}") ∧
    result ((State.after (fun k => if k < 10 then 1 else 0) 20 (State.start plainConf job)).prog 0) =
      some (asc "{\"\"can not encode chan int  [sliceElem] [mapKey] to json\"\":true}") := by decide +kernel

end Verif.Jsonfmt.Cache
