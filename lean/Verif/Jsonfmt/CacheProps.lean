import Verif.Jsonfmt.CacheLemmas
import Verif.Jsonfmt.ValProps

set_option linter.unusedSectionVars false

/-!
# C153: extensions; C154: texts do not depend on what was marshalled before
-/

namespace Verif.Jsonfmt.Cache
open Verif.Spec

/-! ### C154 -/

/-- C154 (partial): whatever has been marshalled before, with whatever configurations, a value is printed as if it were the first.
Missing: maps in it whose keys cannot be encoded, not even by an extension (`chan_key_remembers`), and extensions that look
at the path (`path_extension_remembers`). -/
theorem history_free_partial (conf : Nat → Config) (hp : ∀ c, PathFree (conf c)) (before : List (Nat × Ty × Val)) (c : Nat)
    (t : Ty) (v : Val) (ht : KeysOk (hooked (conf c)) t) (hv : ValOk v) :
    (marshal conf c t v (history conf before World.init)).1 = (marshal conf c t v World.init).1 := by
  rw [(marshal_text conf hp c t v _ (history_good conf hp before _ (good_init conf))).2 ht hv,
    (marshal_text conf hp c t v _ (good_init conf)).2 ht hv]

section
variable (conf : Nat → Config) (h0 : conf 0 = ⟨false, []⟩)

theorem no_hook (u : Bool) (t : Ty) : hook ⟨u, []⟩ t = none := rfl

theorem not_hooked (u : Bool) : hooked ⟨u, []⟩ = fun _ => false := rfl

theorem key_plain (k : Val) (u : Bool) (c : Nat) (kt : Ty) (hk : Clean (fun _ => false) kt)
    (ih : ∀ (p s : Bytes), text conf k (fresh ⟨u, []⟩ c p kt) s = Jsonfmt.encode k (Jsonfmt.encoderOf u p kt) s)
    (pfx s : Bytes) (hi : kt ≠ .iface) :
    keyText (text conf k) (freshKey ⟨u, []⟩ c kt) s = match Jsonfmt.encoderOfMapKey u pfx kt with
      | .number e => Jsonfmt.encode k e (s ++ [34]) ++ [34, 58]
      | .string e => Jsonfmt.encode k e s ++ [58]
      | .iface _ _ => s := by
  unfold freshKey
  rw [fresh_prefix ⟨u, []⟩ c kt (by rw [not_hooked]; exact hk) [] (pfx ++ asc " [mapKey]")]
  unfold wrapKey Jsonfmt.encoderOfMapKey
  cases kt <;> simp only [keyIsString, if_true, Bool.false_eq_true, if_false, keyText, ih] <;> exact absurd rfl hi

include h0
mutual
theorem plain_text (v : Val) (u : Bool) (c : Nat) (hc : conf c = ⟨u, []⟩) (t : Ty) (ht : KeysOk (fun _ => false) t) (hv : ValOk v)
    (p s : Bytes) : text conf v (fresh ⟨u, []⟩ c p t) s = Jsonfmt.encode v (Jsonfmt.encoderOf u p t) s := by
  have no : ¬ (fun _ : Ty => false) t = true := by simp
  cases v with
  | nil => cases t <;> simp [fresh, no_hook, encoderOf_map, Jsonfmt.encoderOf, text, Jsonfmt.encode]
  | ptr v =>
    cases t with
    | ptr t =>
      rw [KeysOk] at ht
      rw [ValOk] at hv
      simp only [fresh, no_hook, Jsonfmt.encoderOf, text, Jsonfmt.encode]
      exact plain_text v u c hc t (ht.resolve_left no) hv _ s
    | _ => simp [fresh, no_hook, encoderOf_map, Jsonfmt.encoderOf, text, Jsonfmt.encode]
  | seq vs =>
    cases t with
    | slice t =>
      rw [KeysOk] at ht
      rw [ValOk] at hv
      simp only [fresh, no_hook, Jsonfmt.encoderOf, text, Jsonfmt.encode]
      rw [plain_elems vs u c hc t (ht.resolve_left no) hv]
    | array n t =>
      rw [KeysOk] at ht
      rw [ValOk] at hv
      simp only [fresh, no_hook, Jsonfmt.encoderOf, text, Jsonfmt.encode]
      rw [plain_elems vs u c hc t (ht.resolve_left no) hv]
    | _ => simp [fresh, no_hook, encoderOf_map, Jsonfmt.encoderOf, text, Jsonfmt.encode]
  | map ps =>
    cases t with
    | map kt vt =>
      rw [KeysOk] at ht
      rw [ValOk] at hv
      rw [encoderOf_map]
      simp only [fresh, no_hook, text, Jsonfmt.encode]
      have := plain_pairs ps u c hc kt vt (ht.resolve_left no).1 (ht.resolve_left no).2 hv p (p ++ asc " [mapElem]") true (s ++ [123])
      unfold freshKey at this
      rw [this]
    | _ => simp [fresh, no_hook, encoderOf_map, Jsonfmt.encoderOf, text, Jsonfmt.encode]
  | struct vs =>
    cases t with
    | struct fs =>
      rw [KeysOk] at ht
      rw [ValOk] at hv
      simp only [fresh, no_hook, Jsonfmt.encoderOf, text, Jsonfmt.encode]
      rw [plain_fields vs u c hc fs (ht.resolve_left no) hv]
    | _ => simp [fresh, no_hook, encoderOf_map, Jsonfmt.encoderOf, text, Jsonfmt.encode]
  | iface u' v =>
    cases t with
    | iface =>
      rw [ValOk] at hv
      simp only [fresh, no_hook, Jsonfmt.encoderOf, text, Jsonfmt.encode, h0]
      exact plain_text v false 0 h0 u' hv.1 hv.2 _ s
    | _ => simp [fresh, no_hook, encoderOf_map, Jsonfmt.encoderOf, text, Jsonfmt.encode]
  | _ => cases t <;> simp [fresh, no_hook, encoderOf_map, Jsonfmt.encoderOf, text, Jsonfmt.encode]
termination_by structural v
theorem plain_elems (vs : Vals) (u : Bool) (c : Nat) (hc : conf c = ⟨u, []⟩) (t : Ty) (ht : KeysOk (fun _ => false) t)
    (hv : ValsOk vs) (p : Bytes) (first : Bool) (s : Bytes) :
    textElems conf vs (fresh ⟨u, []⟩ c p t) first s = Jsonfmt.encodeElems vs (Jsonfmt.encoderOf u p t) first s := by
  cases vs with
  | nil => rfl
  | cons v vs =>
    rw [ValsOk] at hv
    simp only [textElems, Jsonfmt.encodeElems]
    rw [plain_text v u c hc t ht hv.1, plain_elems vs u c hc t ht hv.2]
termination_by structural vs
theorem plain_pairs (ps : Pairs) (u : Bool) (c : Nat) (hc : conf c = ⟨u, []⟩) (kt vt : Ty) (hk : Clean (fun _ => false) kt)
    (ht : KeysOk (fun _ => false) vt) (hv : PairsOk ps) (p q : Bytes) (first : Bool) (s : Bytes) :
    textPairs conf ps (freshKey ⟨u, []⟩ c kt) (fresh ⟨u, []⟩ c q vt) first s =
      Jsonfmt.encodePairs ps (Jsonfmt.encoderOfMapKey u p kt) (Jsonfmt.encoderOf u q vt) first s := by
  cases ps with
  | nil => rfl
  | cons k v ps =>
    rw [PairsOk] at hv
    obtain ⟨h1, h2, h3, h4⟩ := hv
    have ihv := plain_text v u c hc vt ht h3 q
    have ihp := plain_pairs ps u c hc kt vt hk ht h4 p q false
    by_cases hki : kt = .iface
    · subst hki
      have e1 : freshKey ⟨u, []⟩ c .iface = .iface c [] := rfl
      have e2 : Jsonfmt.encoderOfMapKey u p .iface = .iface u p := by simp [Jsonfmt.encoderOfMapKey, keyIsString]
      rw [e1, e2] at ihp ⊢
      by_cases hkk : ∃ t x, k = .iface t x
      · cases k with
        | iface t k =>
          rw [textPairs_iface, Jsonfmt.encodePairs_iface, ihp, ihv, hc]
          by_cases hti : t = .iface
          · subst hti
            have e3 : freshKey ⟨u, []⟩ c .iface = .iface c [] := rfl
            rw [e3, e2]; rfl
          · rw [ValOk] at h2
            rw [key_plain conf k u c t h1 (fun p s => plain_text k u c hc t h2.1 h2.2 p s) p _ hti]
            cases Jsonfmt.encoderOfMapKey u p t <;> rfl
        | _ => obtain ⟨t, x, h⟩ := hkk; cases h
      · have hkk' : ∀ t x, k ≠ .iface t x := fun t x h => hkk ⟨t, x, h⟩
        rw [textPairs_other conf k v hkk', ihp, ihv]
        cases k with
        | iface t x => exact absurd rfl (hkk' t x)
        | _ => rfl
    · have hkey := key_plain conf k u c kt hk (fun p s => plain_text k u c hc kt (clean_keysOk _ _ hk) h2 p s) p
        (if first then s else s ++ [44]) hki
      cases hke : Jsonfmt.encoderOfMapKey u p kt with
      | number e =>
        rw [hke] at hkey ihp
        simp only at hkey
        rw [Jsonfmt.encodePairs_number, ← ihp, ← ihv, ← hkey]
        cases hf : freshKey ⟨u, []⟩ c kt with
        | number e' => rw [textPairs_number]
        | string e' => rw [textPairs_string]
        | iface c' p' =>
          exfalso
          unfold freshKey wrapKey at hf
          cases kt <;> simp [keyIsString] at hf hki
      | string e =>
        rw [hke] at hkey ihp
        simp only at hkey
        rw [Jsonfmt.encodePairs_string, ← ihp, ← ihv, ← hkey]
        cases hf : freshKey ⟨u, []⟩ c kt with
        | number e' => rw [textPairs_number]
        | string e' => rw [textPairs_string]
        | iface c' p' =>
          exfalso
          unfold freshKey wrapKey at hf
          cases kt <;> simp [keyIsString] at hf hki
      | iface u' p' =>
        exfalso
        unfold Jsonfmt.encoderOfMapKey at hke
        cases kt <;> simp [keyIsString] at hke hki
termination_by structural ps
theorem plain_fields (vs : Vals) (u : Bool) (c : Nat) (hc : conf c = ⟨u, []⟩) (fs : Fields) (ht : KeysOkFields (fun _ => false) fs)
    (hv : ValsOk vs) (any : Bool) (s : Bytes) :
    textFields conf vs (freshFields ⟨u, []⟩ c any fs) s = Jsonfmt.encodeFields vs (Jsonfmt.encoderOfFields u any fs) s := by
  cases vs with
  | nil =>
    cases fs with
    | nil => rfl
    | cons name tag ty rest =>
      simp only [freshFields, Jsonfmt.encoderOfFields]
      by_cases hn : getFieldName u name tag ty = [] <;> simp [hn, textFields, Jsonfmt.encodeFields]
  | cons v vs =>
    cases fs with
    | nil => rfl
    | cons name tag ty rest =>
      rw [ValsOk] at hv
      rw [KeysOkFields] at ht
      simp only [freshFields, Jsonfmt.encoderOfFields]
      by_cases hn : getFieldName u name tag ty = []
      · simp only [hn, if_true, textFields, Jsonfmt.encodeFields]
        exact plain_fields vs u c hc rest ht.2 hv.2 any s
      · simp only [hn, if_false, textFields, Jsonfmt.encodeFields]
        rw [plain_text v u c hc ty ht.1 hv.1, plain_fields vs u c hc rest ht.2 hv.2]
termination_by structural vs
end
end

/-- C154 (partial): without extensions, whatever has been marshalled before, the text is that of the model without caches, so
that what is proved of it (C16 to C19) holds of any sequence of calls.  Missing: as in `history_free_partial`. -/
theorem caches_transparent_partial (conf : Nat → Config) (hp : ∀ c, PathFree (conf c)) (h0 : conf 0 = ⟨false, []⟩)
    (before : List (Nat × Ty × Val)) (c : Nat) (u : Bool) (hc : conf c = ⟨u, []⟩) (t : Ty) (v : Val)
    (ht : KeysOk (fun _ => false) t) (hv : ValOk v) :
    (marshal conf c t v (history conf before World.init)).1 = Jsonfmt.encode v (Jsonfmt.encoderOf u [] t) [] := by
  rw [(marshal_text conf hp c t v _ (history_good conf hp before _ (good_init conf))).2 (by rw [hc, not_hooked]; exact ht) hv,
    hc, plain_text conf h0 v u c hc t ht hv]

/-- No extensions. -/
def plainConf : Nat → Config := fun _ => ⟨false, []⟩

/-- `map[interface{}]T` with one key, a string. -/
def ifaceMap (k : Bytes) (v : Val) : Val := .map (.cons (.iface .str (.str k)) v .nil)

example : (∀ c, PathFree (plainConf c)) ∧ KeysOk (hooked (plainConf 0)) (.slice (.map .iface (.map .int64 .iface))) ∧
    ValOk (.seq (.cons (ifaceMap (asc "a") (.map (.cons (.i64 1) (.iface (.slice .bool) (.seq (.cons (.bool true) .nil))) .nil))) .nil)) := by
  refine ⟨fun c x hx => by simp [plainConf] at hx, ?_, ?_⟩
  · simp [KeysOk, Clean, hooked, hook, plainConf]
  · simp [ValOk, ValsOk, PairsOk, KeyOk, KeysOk, Clean, ifaceMap]

example : (marshal plainConf 0 (.slice (.map .iface .bool)) (.seq (.cons (ifaceMap (asc "a") (.bool true)) .nil))
    (history plainConf [(0, .map .str .int8, .map (.cons (.str (asc "x")) (.i8 3) .nil)), (1, .iface, .nil)] World.init)).1 =
    asc "[{\"a\":true}]" := by decide +kernel

/-- C154, negation: the message about keys that cannot be encoded says where they were met first: after a slice of maps of
this type (an empty one will do) a map of this type is printed differently. -/
theorem chan_key_remembers :
    (marshal plainConf 0 (.map (.chan (asc "chan int")) .bool) (.map (.cons .nil (.bool true) .nil)) World.init).1 =
      asc "{\"\"can not encode chan int  [mapKey] to json\"\":true}" ∧
    (marshal plainConf 0 (.map (.chan (asc "chan int")) .bool) (.map (.cons .nil (.bool true) .nil))
      (history plainConf [(0, .slice (.map (.chan (asc "chan int")) .bool), .seq .nil)] World.init)).1 =
      asc "{\"\"can not encode chan int  [sliceElem] [mapKey] to json\"\":true}" := by decide +kernel

/-- An extension for the strings that are keys of maps in a slice. -/
def sliceKeys : Extension := fun p t =>
  if p = asc " [sliceElem] [mapKey]" ∧ t = .str then some (fun _ space => space ++ asc "\"secret\"") else none

/-- C154, negation: an extension that looks at the path decides for a type of keys once and for all. -/
theorem path_extension_remembers :
    (marshal (fun c => ⟨false, if c = 1 then [sliceKeys] else []⟩) 1 (.map .str .bool)
      (.map (.cons (.str (asc "a")) (.bool true) .nil)) World.init).1 = asc "{\"a\":true}" ∧
    (marshal (fun c => ⟨false, if c = 1 then [sliceKeys] else []⟩) 1 (.map .str .bool)
      (.map (.cons (.str (asc "a")) (.bool true) .nil))
      (history (fun c => ⟨false, if c = 1 then [sliceKeys] else []⟩) [(1, .slice (.map .str .bool), .seq .nil)] World.init)).1 =
      asc "{\"secret\":true}" := by decide +kernel

/-! ### C153 -/

/-- The member name under which a field must appear, if it must; `hooked`: an extension prints values of its type. -/
def memberName (unexported hooked : Bool) (name tag : Bytes) (ty : Ty) : Option Bytes :=
  if (unexported = true ∨ exported name = some true) ∧ (isFuncOrChan ty = false ∨ hooked = true) ∧ tagName tag ≠ [45] then
    some (if tagName tag = [] then name else tagName tag)
  else none

/-- By the extension, or else so. -/
def orElse (hk : Ty → Option Hook) (t : Ty) (v : Val) (space other : Bytes) : Bytes :=
  match hk t with
  | some h => h v space
  | none => other

mutual
/-- How a value of type `t` should be printed when `hk` says what extensions do with which types: by the extension
wherever it has something to say, and otherwise part by part. -/
def shows (hk : Ty → Option Hook) (un : Bool) : Val → Ty → Bytes → Bytes
  | .ptr v, .ptr t, space => orElse hk (.ptr t) (.ptr v) space (shows hk un v t space)
  | .seq vs, .slice t, space => orElse hk (.slice t) (.seq vs) space (showElems hk un vs t true (space ++ asc "[") ++ asc "]")
  | .seq vs, .array n t, space => orElse hk (.array n t) (.seq vs) space (showElems hk un vs t true (space ++ asc "[") ++ asc "]")
  | .map ps, .map kt vt, space => orElse hk (.map kt vt) (.map ps) space (showPairs hk un ps kt vt true (space ++ asc "{") ++ asc "}")
  | .struct vs, .struct fs, space => orElse hk (.struct fs) (.struct vs) space (showFields hk un vs fs true (space ++ asc "{") ++ asc "}")
  | .iface t v, .iface, space => orElse hk .iface (.iface t v) space (shows hk un v t space)
  | v, t, space => orElse hk t v space (Jsonfmt.encode v (Jsonfmt.encoderOf un [] t) space)
def showElems (hk : Ty → Option Hook) (un : Bool) : Vals → Ty → Bool → Bytes → Bytes
  | .nil, _, _, space => space
  | .cons v vs, t, first, space => showElems hk un vs t false (shows hk un v t (if first then space else space ++ asc ","))
/-- Strings as they are, all other keys in quotes. -/
def showPairs (hk : Ty → Option Hook) (un : Bool) : Pairs → Ty → Ty → Bool → Bytes → Bytes
  | .nil, _, _, _, space => space
  | .cons k v ps, kt, vt, first, space =>
    showPairs hk un ps kt vt false (shows hk un v vt
      (if kt = .str ∨ kt = .bytes then shows hk un k kt (if first then space else space ++ asc ",") ++ asc ":"
       else shows hk un k kt ((if first then space else space ++ asc ",") ++ asc "\"") ++ asc "\":"))
def showFields (hk : Ty → Option Hook) (un : Bool) : Vals → Fields → Bool → Bytes → Bytes
  | .cons v vs, .cons name tag ty fs, first, space =>
    match memberName un (hk ty).isSome name tag ty with
    | none => showFields hk un vs fs first space
    | some n => showFields hk un vs fs false
        (shows hk un v ty ((if first then space else space ++ asc ",") ++ asc "\"" ++ n ++ asc "\":"))
  | _, _, _, space => space
end

mutual
/-- No interfaces and nothing that cannot be encoded, except where an extension takes over; names start in ASCII, and
extensions are not for functions and channels that are fields. -/
def Plain (hk : Ty → Bool) (t : Ty) : Prop :=
  hk t = true ∨ match t with
  | .func _ => False
  | .chan _ => False
  | .other _ => False
  | .iface => False
  | .ptr t => Plain hk t
  | .slice t => Plain hk t
  | .array _ t => Plain hk t
  | .map k v => k ≠ .iface ∧ Plain hk k ∧ Plain hk v
  | .struct fs => PlainFields hk fs
  | _ => True
def PlainFields (hk : Ty → Bool) : Fields → Prop
  | .nil => True
  | .cons name _ ty rest => (∃ c r, name = c :: r ∧ c < 128) ∧ ((isFuncOrChan ty = true ∧ hk ty = false) ∨
      (isFuncOrChan ty = false ∧ Plain hk ty)) ∧ PlainFields hk rest
end

theorem memberName_eq (un h : Bool) (name tag : Bytes) (ty : Ty) (hn : ∃ c r, name = c :: r ∧ c < 128)
    (hf : isFuncOrChan ty = true → h = false) :
    getFieldName un name tag ty = (memberName un h name tag ty).getD [] ∧ memberName un h name tag ty ≠ some [] := by
  cases un with
  | false =>
    have he : memberName false h name tag ty = visibleName name tag ty := by
      unfold memberName visibleName
      cases hc : isFuncOrChan ty
      · simp
      · simp [hf hc]
    rw [he]
    exact getFieldName_eq name tag ty hn
  | true =>
    have he : memberName true h name tag ty = shownName name tag ty := by
      unfold memberName shownName
      cases hc : isFuncOrChan ty
      · by_cases h1 : tagName tag = [45] <;> by_cases h2 : tagName tag = [] <;> simp [h1, h2]
      · simp [hf hc]
    rw [he]
    obtain ⟨c, r, rfl, _⟩ := hn
    exact getFieldName_true _ tag ty (by simp)

mutual
theorem plain_keysOk (hk : Ty → Bool) (t : Ty) (h : Plain hk t) : KeysOk hk t := by
  cases t with
  | ptr t => rw [Plain] at h; rw [KeysOk]; exact h.imp id (plain_keysOk hk t)
  | slice t => rw [Plain] at h; rw [KeysOk]; exact h.imp id (plain_keysOk hk t)
  | array n t => rw [Plain] at h; rw [KeysOk]; exact h.imp id (plain_keysOk hk t)
  | map k v => rw [Plain] at h; rw [KeysOk]; exact h.imp id (fun h => ⟨plain_clean hk k h.2.1, plain_keysOk hk v h.2.2⟩)
  | struct fs => rw [Plain] at h; rw [KeysOk]; exact h.imp id (plain_fieldsOk hk fs)
  | _ => simp [KeysOk]
termination_by structural t
theorem plain_clean (hk : Ty → Bool) (t : Ty) (h : Plain hk t) : Clean hk t := by
  cases t with
  | ptr t => rw [Plain] at h; rw [Clean]; exact h.imp id (plain_clean hk t)
  | slice t => rw [Plain] at h; rw [Clean]; exact h.imp id (plain_clean hk t)
  | array n t => rw [Plain] at h; rw [Clean]; exact h.imp id (plain_clean hk t)
  | map k v => rw [Plain] at h; rw [Clean]; exact h.imp id (fun h => ⟨plain_clean hk k h.2.1, plain_clean hk v h.2.2⟩)
  | struct fs => rw [Plain] at h; rw [Clean]; exact h.imp id (plain_fieldsOk hk fs)
  | func _ => rw [Plain] at h; rw [Clean]; exact h
  | chan _ => rw [Plain] at h; rw [Clean]; exact h
  | other _ => rw [Plain] at h; rw [Clean]; exact h
  | _ => simp [Clean]
termination_by structural t
theorem plain_fieldsOk (hk : Ty → Bool) (fs : Fields) (h : PlainFields hk fs) : KeysOkFields hk fs := by
  cases fs with
  | nil => trivial
  | cons name tag ty rest =>
    rw [PlainFields] at h
    rw [KeysOkFields]
    refine ⟨?_, plain_fieldsOk hk rest h.2.2⟩
    rcases h.2.1 with h1 | h1
    · cases ty <;> simp [isFuncOrChan] at h1 <;> simp [KeysOk]
    · exact plain_keysOk hk ty h1.2
termination_by structural fs
end

section
variable (conf : Nat → Config) (cf : Config) (c : Nat)

theorem fresh_hook (t : Ty) (h : Hook) (hh : hook cf t = some h) (p : Bytes) : fresh cf c p t = .ext h := by
  rw [fresh.eq_def, hh]

theorem shows_hook (un : Bool) (hk : Ty → Option Hook) (v : Val) (t : Ty) (h : Hook) (hh : hk t = some h) (s : Bytes) :
    shows hk un v t s = h v s := by
  cases v <;> cases t <;> simp [shows, orElse, hh]

mutual
/-- Printing with the encoders is printing as the specification says. -/
theorem text_shows (v : Val) (t : Ty) (ht : Plain (hooked cf) t) (p s : Bytes) :
    text conf v (fresh cf c p t) s = shows (hook cf) cf.unexported v t s := by
  cases hh : hook cf t with
  | some h =>
    rw [fresh_hook cf c t h hh, shows_hook _ _ v t h hh]
    cases v <;> rfl
  | none =>
    have no : ¬ hooked cf t = true := by simp [hooked, hh]
    have leaf : ∀ e, e = Jsonfmt.encode v (Jsonfmt.encoderOf cf.unexported [] t) s →
        e = orElse (hook cf) t v s (Jsonfmt.encode v (Jsonfmt.encoderOf cf.unexported [] t) s) := by
      intro e he; rw [orElse, hh]; exact he
    cases v with
    | ptr v =>
      cases t with
      | ptr t =>
        rw [Plain] at ht
        simp only [fresh, hh, text, shows, orElse]
        exact text_shows v t (ht.resolve_left no) _ s
      | func _ => rw [Plain] at ht; exact (ht.resolve_left no).elim
      | chan _ => rw [Plain] at ht; exact (ht.resolve_left no).elim
      | other _ => rw [Plain] at ht; exact (ht.resolve_left no).elim
      | iface => rw [Plain] at ht; exact (ht.resolve_left no).elim
      | _ => simp only [fresh, hh, shows, orElse]; simp [text, encoderOf_map, Jsonfmt.encoderOf, Jsonfmt.encode]
    | seq vs =>
      cases t with
      | slice t =>
        rw [Plain] at ht
        simp only [fresh, hh, text, shows, orElse]
        rw [elems_shows vs t (ht.resolve_left no)]; rfl
      | array n t =>
        rw [Plain] at ht
        simp only [fresh, hh, text, shows, orElse]
        rw [elems_shows vs t (ht.resolve_left no)]; rfl
      | func _ => rw [Plain] at ht; exact (ht.resolve_left no).elim
      | chan _ => rw [Plain] at ht; exact (ht.resolve_left no).elim
      | other _ => rw [Plain] at ht; exact (ht.resolve_left no).elim
      | iface => rw [Plain] at ht; exact (ht.resolve_left no).elim
      | _ => simp only [fresh, hh, shows, orElse]; simp [text, encoderOf_map, Jsonfmt.encoderOf, Jsonfmt.encode]
    | map ps =>
      cases t with
      | map kt vt =>
        rw [Plain] at ht
        simp only [fresh, hh, text, shows, orElse]
        obtain ⟨h1, h2, h3⟩ := ht.resolve_left no
        rw [pairs_shows ps kt vt h1 h2 h3]; rfl
      | func _ => rw [Plain] at ht; exact (ht.resolve_left no).elim
      | chan _ => rw [Plain] at ht; exact (ht.resolve_left no).elim
      | other _ => rw [Plain] at ht; exact (ht.resolve_left no).elim
      | iface => rw [Plain] at ht; exact (ht.resolve_left no).elim
      | _ => simp only [fresh, hh, shows, orElse]; simp [text, Jsonfmt.encoderOf, Jsonfmt.encode]
    | struct vs =>
      cases t with
      | struct fs =>
        rw [Plain] at ht
        simp only [fresh, hh, text, shows, orElse]
        rw [show (asc "}" : Bytes) = [125] from rfl]
        have := fields_shows vs fs (ht.resolve_left no) false (s ++ [123])
        rw [this]; rfl
      | func _ => rw [Plain] at ht; exact (ht.resolve_left no).elim
      | chan _ => rw [Plain] at ht; exact (ht.resolve_left no).elim
      | other _ => rw [Plain] at ht; exact (ht.resolve_left no).elim
      | iface => rw [Plain] at ht; exact (ht.resolve_left no).elim
      | _ => simp only [fresh, hh, shows, orElse]; simp [text, encoderOf_map, Jsonfmt.encoderOf, Jsonfmt.encode]
    | _ =>
      cases t with
      | func _ => rw [Plain] at ht; exact (ht.resolve_left no).elim
      | chan _ => rw [Plain] at ht; exact (ht.resolve_left no).elim
      | other _ => rw [Plain] at ht; exact (ht.resolve_left no).elim
      | iface => rw [Plain] at ht; exact (ht.resolve_left no).elim
      | _ => simp only [fresh, hh, shows, orElse]; simp [text, encoderOf_map, Jsonfmt.encoderOf, Jsonfmt.encode]
termination_by structural v
theorem elems_shows (vs : Vals) (t : Ty) (ht : Plain (hooked cf) t) (p : Bytes) (first : Bool) (s : Bytes) :
    textElems conf vs (fresh cf c p t) first s = showElems (hook cf) cf.unexported vs t first s := by
  cases vs with
  | nil => rfl
  | cons v vs =>
    simp only [textElems, showElems]
    rw [text_shows v t ht, elems_shows vs t ht]; rfl
termination_by structural vs
theorem pairs_shows (ps : Pairs) (kt vt : Ty) (hi : kt ≠ .iface) (hk : Plain (hooked cf) kt) (ht : Plain (hooked cf) vt) (p : Bytes)
    (first : Bool) (s : Bytes) : textPairs conf ps (wrapKey c [] kt (fresh cf c [] kt)) (fresh cf c p vt) first s =
      showPairs (hook cf) cf.unexported ps kt vt first s := by
  cases ps with
  | nil => rfl
  | cons k v ps =>
    have ihp := pairs_shows ps kt vt hi hk ht p false
    have ihk := text_shows k kt hk []
    have ihv := text_shows v vt ht p
    by_cases hs : kt = .str ∨ kt = .bytes
    · have hw : wrapKey c [] kt (fresh cf c [] kt) = .string (fresh cf c [] kt) := by
        unfold wrapKey
        rcases hs with h | h <;> subst h <;> rfl
      rw [hw] at ihp ⊢
      rw [textPairs_string, ihp, showPairs, if_pos hs]
      simp only [keyText]
      rw [ihv, ihk]; rfl
    · have hw : wrapKey c [] kt (fresh cf c [] kt) = .number (fresh cf c [] kt) := by
        unfold wrapKey
        cases kt <;> simp [keyIsString] at hs hi ⊢
      rw [hw] at ihp ⊢
      rw [textPairs_number, ihp, showPairs, if_neg hs]
      simp only [keyText]
      rw [ihv, ihk]; rfl
termination_by structural ps
theorem fields_shows (vs : Vals) (fs : Fields) (ht : PlainFields (hooked cf) fs) (any : Bool) (s : Bytes) :
    textFields conf vs (freshFields cf c any fs) s = showFields (hook cf) cf.unexported vs fs (!any) s := by
  cases vs with
  | nil =>
    cases fs with
    | nil => rfl
    | cons name tag ty rest =>
      simp only [freshFields]
      split <;> simp [textFields, showFields]
  | cons v vs =>
    cases fs with
    | nil => rfl
    | cons name tag ty rest =>
      rw [PlainFields] at ht
      obtain ⟨h1, h2, h3⟩ := ht
      have hm := memberName_eq cf.unexported (hook cf ty).isSome name tag ty h1 (by
        intro hf
        rcases h2 with h2 | h2
        · exact h2.2
        · rw [h2.1] at hf; cases hf)
      have ih1 := fields_shows vs rest h3
      have ih2 := fun hp => text_shows v ty hp
      simp only [freshFields, showFields]
      cases hn : memberName cf.unexported (hook cf ty).isSome name tag ty with
      | none =>
        rw [hn] at hm
        simp only [Option.getD_none] at hm
        simp only [hm.1, if_true, textFields]
        exact ih1 any s
      | some n =>
        rw [hn] at hm
        simp only [Option.getD_some, ne_eq, Option.some.injEq] at hm
        have hty : Plain (hooked cf) ty := by
          rcases h2 with h2 | h2
          · exfalso
            unfold memberName at hn
            have : (hook cf ty).isSome = false := h2.2
            simp [h2.1, this] at hn
          · exact h2.2
        simp only [hm.1, hm.2, if_false, textFields]
        rw [ih2 hty, ih1]
        cases any <;> simp [asc]
termination_by structural vs
end
end

/-- C153 (partial): with extensions that look at types only, whatever was marshalled before, a value is printed as it should
be: by the extensions wherever they have something to say, otherwise as without.  Missing: what is below interfaces
(`extension_lost_below_interface`) and functions and channels that are fields (`extension_not_for_fields`). -/
theorem extension_decides_partial (conf : Nat → Config) (hp : ∀ c, PathFree (conf c)) (before : List (Nat × Ty × Val)) (c : Nat)
    (t : Ty) (v : Val) (ht : Plain (hooked (conf c)) t) (hv : ValOk v) :
    (marshal conf c t v (history conf before World.init)).1 = shows (hook (conf c)) (conf c).unexported v t [] := by
  rw [(marshal_text conf hp c t v _ (history_good conf hp before _ (good_init conf))).2 (plain_keysOk _ _ ht) hv,
    text_shows conf (conf c) c v t ht]

/-- An extension for complex numbers, and one for channels. -/
def numbers : Extension := fun _ t => if t = .other (asc "complex128") then some (fun _ space => space ++ asc "\"i\"") else none
def channels : Extension := fun _ t => if t = .chan (asc "chan int") then some (fun _ space => space ++ asc "\"c\"") else none

/-- Configuration 1 has them. -/
def extConf : Nat → Config := fun c => ⟨false, if c = 1 then [numbers, channels] else []⟩

theorem extConf_free (c : Nat) : PathFree (extConf c) := by
  intro x hx p q t
  unfold extConf at hx
  by_cases h : c = 1
  · simp only [h, if_true, List.mem_cons, List.not_mem_nil, or_false] at hx
    rcases hx with hx | hx <;> subst hx <;> rfl
  · simp [h] at hx

/-- A struct with a slice and a map of them. -/
def extTy : Ty := .struct (.cons (asc "A") [] (.slice (.other (asc "complex128"))) (.cons (asc "b") [] .bool
  (.cons (asc "M") (asc "m") (.map (.chan (asc "chan int")) .int8) .nil)))

example : Plain (hooked (extConf 1)) extTy ∧
    (marshal extConf 1 extTy (.struct (.cons (.seq (.cons .nil (.cons .nil .nil))) (.cons (.bool true)
      (.cons (.map (.cons .nil (.i8 7) .nil)) .nil)))) World.init).1 = asc "{\"A\":[\"i\",\"i\"],\"m\":{\"\"c\"\":7}}" := by
  constructor
  · have h1 : hooked (extConf 1) (.other (asc "complex128")) = true := by decide +kernel
    have h2 : hooked (extConf 1) (.chan (asc "chan int")) = true := by decide +kernel
    have e1 : Plain (hooked (extConf 1)) (.other (asc "complex128")) := by rw [Plain]; exact Or.inl h1
    have e2 : Plain (hooked (extConf 1)) (.chan (asc "chan int")) := by rw [Plain]; exact Or.inl h2
    unfold extTy
    simp only [Plain, PlainFields, h1, h2, isFuncOrChan]
    refine Or.inr ⟨⟨_, _, rfl, by decide⟩, by simp, ⟨_, _, rfl, by decide⟩, by simp, ⟨_, _, rfl, by decide⟩, by simp, trivial⟩
  · decide +kernel

/-- C153, negation: below an interface the extension is not asked. -/
theorem extension_lost_below_interface :
    (marshal extConf 1 (.slice .iface) (.seq (.cons (.iface (.other (asc "complex128")) .nil) .nil)) World.init).1 =
      asc "[\"can not encode complex128  to json\"]" ∧
    shows (hook (extConf 1)) false (.seq (.cons (.iface (.other (asc "complex128")) .nil) .nil)) (.slice .iface) [] =
      asc "[\"i\"]" := by decide +kernel

/-- C153, negation: a channel that is a field is left out though an extension could print it. -/
theorem extension_not_for_fields :
    (marshal extConf 1 (.struct (.cons (asc "C") [] (.chan (asc "chan int")) .nil)) (.struct (.cons .nil .nil)) World.init).1 =
      asc "{}" ∧
    shows (hook (extConf 1)) false (.struct (.cons .nil .nil)) (.struct (.cons (asc "C") [] (.chan (asc "chan int")) .nil)) [] =
      asc "{\"C\":\"c\"}" := by decide +kernel

/-! ### Where extensions are told to be -/

/-- Steps into a type: to what a pointer points, to an element of a slice or array, to a value of a map. -/
inductive Step where
  | ptr | slice | elem

/-- The type these steps lead to. -/
def typeAt : Ty → List Step → Option Ty
  | t, [] => some t
  | .ptr t, .ptr :: r => typeAt t r
  | .slice t, .slice :: r => typeAt t r
  | .array _ t, .slice :: r => typeAt t r
  | .map _ t, .elem :: r => typeAt t r
  | _, _ => none

/-- How they are written in the prefix. -/
def pathText : List Step → Bytes
  | [] => []
  | .ptr :: r => asc " [ptrElem]" ++ pathText r
  | .slice :: r => asc " [sliceElem]" ++ pathText r
  | .elem :: r => asc " [mapElem]" ++ pathText r

/-- The encoder these steps lead to. -/
def encAt : Enc → List Step → Option Enc
  | e, [] => some e
  | .ptr e, .ptr :: r => encAt e r
  | .slice e, .slice :: r => encAt e r
  | .array e, .slice :: r => encAt e r
  | .map _ e, .elem :: r => encAt e r
  | _, _ => none

theorem consult_silent (l : List Extension) (p : Bytes) (t : Ty) (h : ∀ x ∈ l, x p t = none) : consult l p t = none := by
  rw [consult_first, List.findSome?_eq_none_iff]; exact h

theorem build_at (cf : Config) (c : Nat) (u : Ty) : ∀ (steps : List Step) (t : Ty), typeAt t steps = some u →
    ∀ (p : Bytes) (k : KeyCache), (∀ i, i < steps.length → ∀ x ∈ cf.extensions, ∀ t', typeAt t (steps.take i) = some t' →
      x (p ++ pathText (steps.take i)) t' = none) →
    ∃ k', encAt (build cf c p t k).1 steps = some (build cf c (p ++ pathText steps) u k').1 := by
  intro steps
  induction steps with
  | nil =>
    intro t h p k _
    rw [typeAt] at h
    cases h
    exact ⟨k, by rw [encAt, pathText, List.append_nil]⟩
  | cons st r ih =>
    intro t h p k hs
    have h0 : consult cf.extensions p t = none := consult_silent _ _ _ (fun x hx => by
      have := hs 0 (by simp) x hx t (by rw [List.take_zero, typeAt])
      rwa [List.take_zero, pathText, List.append_nil] at this)
    have hs' : ∀ i, i < r.length → ∀ x ∈ cf.extensions, ∀ t', typeAt t (st :: r.take i) = some t' →
        x (p ++ pathText (st :: r.take i)) t' = none := fun i hi x hx t' ht' => by
      have := hs (i + 1) (by simp; omega) x hx t' (by rw [List.take_succ_cons]; exact ht')
      rwa [List.take_succ_cons] at this
    cases st with
    | ptr =>
      cases t with
      | ptr t =>
        simp only [typeAt] at h
        obtain ⟨k', hk'⟩ := ih t h (p ++ asc " [ptrElem]") k (fun i hi x hx t' ht' => by
          have := hs' i hi x hx t' (by rw [typeAt]; exact ht')
          rw [pathText] at this
          rw [List.append_assoc]; exact this)
        refine ⟨k', ?_⟩
        simp only [build, h0, encAt, pathText]
        rw [hk', List.append_assoc]
      | _ => simp [typeAt] at h
    | slice =>
      cases t with
      | slice t =>
        simp only [typeAt] at h
        obtain ⟨k', hk'⟩ := ih t h (p ++ asc " [sliceElem]") k (fun i hi x hx t' ht' => by
          have := hs' i hi x hx t' (by rw [typeAt]; exact ht')
          rw [pathText] at this
          rw [List.append_assoc]; exact this)
        refine ⟨k', ?_⟩
        simp only [build, h0, encAt, pathText]
        rw [hk', List.append_assoc]
      | array n t =>
        simp only [typeAt] at h
        obtain ⟨k', hk'⟩ := ih t h (p ++ asc " [sliceElem]") k (fun i hi x hx t' ht' => by
          have := hs' i hi x hx t' (by rw [typeAt]; exact ht')
          rw [pathText] at this
          rw [List.append_assoc]; exact this)
        refine ⟨k', ?_⟩
        simp only [build, h0, encAt, pathText]
        rw [hk', List.append_assoc]
      | _ => simp [typeAt] at h
    | elem =>
      cases t with
      | map kt t =>
        simp only [typeAt] at h
        have ih' := fun k => ih t h (p ++ asc " [mapElem]") k (fun i hi x hx t' ht' => by
          have := hs' i hi x hx t' (by rw [typeAt]; exact ht')
          rw [pathText] at this
          rw [List.append_assoc]; exact this)
        simp only [build, h0]
        cases k kt with
        | some ke =>
          obtain ⟨k', hk'⟩ := ih' k
          refine ⟨k', ?_⟩
          simp only [encAt, pathText]
          rw [hk', List.append_assoc]
        | none =>
          obtain ⟨k', hk'⟩ := ih' _
          refine ⟨k', ?_⟩
          simp only [encAt, pathText]
          rw [hk', List.append_assoc]
      | _ => simp [typeAt] at h

/-- C153 (partial): an extension is told by which pointers, slices, arrays and maps it got where it is asked, and what it
answers there is used there: one that answers at one place only is used at that place.  Missing: places in structs
(`field_path_lost`). -/
theorem asked_with_path_partial (conf : Nat → Config) (c : Nat) (x : Extension) (hx : (conf c).extensions = [x]) (t u : Ty)
    (steps : List Step) (ht : typeAt t steps = some u) (h : Hook) (hu : x (pathText steps) u = some h)
    (silent : ∀ q t', q ≠ pathText steps → x q t' = none) :
    encAt (encoderOf conf c t World.init).1 steps = some (.ext h) := by
  have hlen : ∀ i, i < steps.length → pathText (steps.take i) ≠ pathText steps := by
    intro i hi he
    have : ∀ (s : List Step) (i : Nat), i < s.length → (pathText (s.take i)).length < (pathText s).length := by
      intro s
      induction s with
      | nil => intro i hi; simp at hi
      | cons a s ih =>
        intro i hi
        cases i with
        | zero => rw [List.take_zero]; cases a <;> simp [pathText, asc]
        | succ i =>
          rw [List.take_succ_cons]
          have := ih i (by simp at hi; omega)
          cases a <;> simp only [pathText, List.length_append] <;> omega
    have := this steps i hi
    rw [he] at this
    omega
  obtain ⟨k', hk'⟩ := build_at (conf c) c u steps t ht [] (World.init c).keys (fun i hi y hy t' _ => by
    rw [hx, List.mem_singleton] at hy
    subst hy
    rw [List.nil_append]
    exact silent _ _ (hlen i hi))
  have hb : (build (conf c) c (pathText steps) u k').1 = .ext h := by
    have : consult (conf c).extensions (pathText steps) u = some h := by
      rw [hx, consult, hu]
    rw [build.eq_def, this]
  rw [List.nil_append, hb] at hk'
  exact hk'

example : typeAt (.map .str (.slice (.ptr .int8))) [.elem, .slice, .ptr] = some .int8 ∧
    pathText [.elem, .slice, .ptr] = asc " [mapElem] [sliceElem] [ptrElem]" := by decide +kernel

/-- C153, negation: wherever a struct is, extensions are asked about its fields with the same path. -/
theorem field_path_lost (cf : Config) (c : Nat) (fs : Fields) (p q : Bytes) (k : KeyCache)
    (hp : ∀ x ∈ cf.extensions, x p (.struct fs) = none) (hq : ∀ x ∈ cf.extensions, x q (.struct fs) = none) :
    build cf c p (.struct fs) k = build cf c q (.struct fs) k := by
  rw [build.eq_def, build.eq_def cf c q, consult_silent _ _ _ hp, consult_silent _ _ _ hq]

/-- An extension for the field `F` of the elements of a slice. -/
def fieldOfElems : Extension := fun p t =>
  if p = asc " [sliceElem] .F" ∧ t = .int8 then some (fun _ space => space ++ asc "0") else none

example : (marshal (fun c => ⟨false, if c = 1 then [fieldOfElems] else []⟩) 1 (.slice (.struct (.cons (asc "F") [] .int8 .nil)))
    (.seq (.cons (.struct (.cons (.i8 5) .nil)) .nil)) World.init).1 = asc "[{\"F\":5}]" := by decide +kernel

end Verif.Jsonfmt.Cache
