import Verif.Countlog.Formats
import Verif.Jsonfmt.MemProps

/-!
# C155: lines of the JSON format for events other than the one the handler was made for

`countlog/output/json/json.go` keeps the names and types of the properties of the event the handler was made for (the
sample) and reads the properties of every later event of that name with the encoders of those types.  The memory the
encoders read is that of `Verif.Jsonfmt.MemModel`.
-/

namespace Verif.Countlog.JsonLine
open Verif.Spec Verif.Jsonfmt Verif.Jsonfmt.Mem

/-! ### Model -/

/-- An `interface{}` among the properties (countlog/spi/spi.go:65 and 85): type and data word, or nil.  Types are the trees of
`Verif.Jsonfmt`, so that named types are not told from their underlying types. -/
abbrev Iface := Option (Ty × Nat)

/-- The assertion `.(string)`, json.go:20; `none` is a panic. -/
def asString (σ : Store) : Iface → Option Bytes
  | some (.str, w) =>
    match σ.cell w with
    | some (.val (.str s)) => some s
    | _ => none
  | _ => none

/-- `jsonFormatterProp`, json.go:37-41; the encoder is that `jsonfmt.EncoderOf` makes for a type. -/
structure JsonProp where
  pfx : Bytes
  idx : Nat
  type : Ty

/-- `jsonFormatter`, json.go:30-35, without the encoder of the time. -/
structure JsonFormatter where
  pfx : Bytes
  suffix : Bytes
  props : List JsonProp

/-- The loop of `JsonFormat.FormatterOf`, json.go:19-26, from index `i` on; `none` is a panic: a name is no string, a
value is missing, or it is nil (`reflect2.TypeOf` panics, see `keyAt` in MemModel). -/
def propsOf (σ : Store) : Nat → List Iface → Option (List JsonProp)
  | _, [] => some []
  | _, [_] => none
  | i, k :: v :: rest =>
    match asString σ k with
    | none => none
    | some key =>
      match v with
      | none => none
      | some (t, _) =>
        match propsOf σ (i + 2) rest with
        | none => none
        | some ps => some (⟨[34] ++ key ++ [34, 58], i + 1, t⟩ :: ps)

/-- `JsonFormat.FormatterOf`, json.go:13-28. -/
def formatterOf (σ : Store) (event location : Bytes) (sample : List Iface) : Option JsonFormatter :=
  match propsOf σ 0 sample with
  | none => none
  | some ps => some ⟨asc "{\"event\":\"" ++ event ++ asc "\"", asc ",location:\"" ++ location ++ asc "\"}" ++ asc "\n", ps⟩

/-- The loop of `jsonFormatter.Format`, json.go:45-49.  `reflect2.PtrOf` of nil is the null pointer; reading there is a
`fault` in the model (a panic in Go). -/
def formatProps (σ : Store) (fuel : Nat) (props : List Iface) : List JsonProp → Bytes → Res
  | [], space => .ok space
  | p :: ps, space =>
    match props[p.idx]? with
    | none => .panic
    | some v =>
      (encodeAt σ fuel p.type (encoderOf false [] p.type) (dataLoc p.type ((v.map Prod.snd).getD 0)) (space ++ [44] ++ p.pfx)).andThen
        fun space => formatProps σ fuel props ps space

/-- `jsonFormatter.Format`, json.go:43-54, for an event with these properties and time. -/
def JsonFormatter.format (f : JsonFormatter) (σ : Store) (fuel : Nat) (props : List Iface) (nanos : Int64) (space : Bytes) : Res :=
  (formatProps σ fuel props f.props (space ++ f.pfx)).andThen fun space =>
    .ok (writeInt64 (space ++ asc ",timestamp:") nanos ++ f.suffix)

/-! ### Specification -/

/-- A property: its name, type and value, and the JSON value it stands for. -/
structure P where
  key : Bytes
  type : Ty
  val : Val
  json : Json

/-- These arguments are the properties: names and values in turn. -/
inductive Given (up : Bytes → Prop) (σ : Store) : List Iface → List P → Prop
  | nil : Given up σ [] []
  | cons (p : P) (kw w : Nat) (args : List Iface) (ps : List P) (hk : σ.cell kw = some (.val (.str p.key)))
      (hv : HoldsIface up σ p.val p.type w) (h : Given up σ args ps) :
      Given up σ (some (.str, kw) :: some (p.type, w) :: args) (p :: ps)

/-- The value is one that C17 and C152 speak about, and the name needs no escapes. -/
structure P.Ok (up : Bytes → Prop) (p : P) : Prop where
  keys : PlainKeys up p.val p.type
  means : expected p.val p.type = some p.json
  val : GoodVal p.val
  type : GoodTy p.type
  name : ∀ c ∈ p.key, plain c = true

/-! ### Proofs -/

theorem iface_late (up : Bytes → Prop) (σ : Store) (v : Val) (t : Ty) (w : Nat) (h : HoldsIface up σ v t w)
    (hk : PlainKeys up v t) : Late fun n => ∀ space,
      encodeAt σ n t (encoderOf false [] t) (dataLoc t w) space = .ok (encode v (encoderOf false [] t) space) := by
  rcases h with ⟨hd, h⟩ | ⟨hd, h⟩
  · refine (encodes up σ v t _ h hk false []).mono fun n hn space => ?_
    rw [← hn space, dataLoc]
    cases hl : likePtr t
    · exact blind up σ t hd hl n _ _ _ _ _
    · rfl
  · refine (encodes up σ v t _ h hk false []).mono fun n hn space => ?_
    rw [← hn space, dataLoc]
    cases hl : likePtr t
    · rfl
    · exact absurd (likePtr_direct up t hl) hd

/-- What the formatter keeps of the sample. -/
def kept : Nat → List (Bytes × Ty) → List JsonProp
  | _, [] => []
  | i, (key, t) :: rest => ⟨34 :: (key ++ [34, 58]), i + 1, t⟩ :: kept (i + 2) rest

theorem propsOf_given (up : Bytes → Prop) (σ : Store) (args : List Iface) (ps : List P) (h : Given up σ args ps) (i : Nat) :
    propsOf σ i args = some (kept i (ps.map fun p => (p.key, p.type))) := by
  induction h generalizing i with
  | nil => rfl
  | cons p kw w args ps hk hv h ih =>
    simp only [propsOf, asString, hk, ih, List.map_cons, kept]
    rfl

theorem formatProps_given (up : Bytes → Prop) (σ : Store) (args : List Iface) (ps : List P) (h : Given up σ args ps)
    (hok : ∀ p ∈ ps, p.Ok up) : ∀ (pre : List Iface) (space : Bytes),
    ∃ texts : List (JProp × Json), texts.map (fun x => (x.1.key, x.2)) = ps.map (fun p => (p.key, p.json)) ∧
      (∀ x ∈ texts, (∀ c ∈ x.1.key, plain c = true) ∧ Reads x.1.text x.2) ∧
      Late fun n => formatProps σ n (pre ++ args) (kept pre.length (ps.map fun p => (p.key, p.type))) space =
        .ok (space ++ (texts.map Prod.fst).flatMap fun p => 44 :: ((34 :: p.key ++ asc "\":") ++ p.text)) := by
  induction h with
  | nil =>
    intro pre space
    exact ⟨[], rfl, by simp, Late.now fun n => by simp [kept, formatProps]⟩
  | cons p kw w args ps hk hv h ih =>
    intro pre space
    have hp := hok p (by simp)
    obtain ⟨x, hx, hr⟩ := encode_reads p.val p.type p.json [] (space ++ [44] ++ (34 :: (p.key ++ [34, 58]))) hp.means hp.val hp.type
    obtain ⟨texts, h1, h2, h3⟩ := ih (fun q hq => hok q (by simp [hq])) (pre ++ [some (.str, kw), some (p.type, w)])
      (space ++ [44] ++ (34 :: (p.key ++ [34, 58])) ++ x)
    refine ⟨(⟨p.key, x⟩, p.json) :: texts, by simp [h1], ?_, ?_⟩
    · intro y hy
      rcases List.mem_cons.mp hy with rfl | hy
      · exact ⟨hp.name, hr⟩
      · exact h2 y hy
    · refine ((iface_late up σ p.val p.type w hv hp.keys).and h3).mono fun n hn => ?_
      have hi : (pre ++ some (Ty.str, kw) :: some (p.type, w) :: args)[pre.length + 1]? = some (some (p.type, w)) := by
        rw [List.getElem?_append_right (by omega)]
        simp
      simp only [List.map_cons, kept, formatProps, hi, Option.map_some, Option.getD_some]
      rw [hn.1, hx, Res.andThen]
      have e := hn.2
      rw [List.length_append] at e
      simp only [List.append_assoc, List.cons_append, List.nil_append, List.length_cons, List.length_nil] at e ⊢
      rw [e]
      have : asc "\":" = [34, 58] := rfl
      simp [this]

/-- C155 (partial): a line for an event whose properties have the names and types of those of the event the handler was
made for - whatever their values and whatever has happened to memory since - has the event's own values, next to
the event's name, its time and the place of the handler.  Missing: events whose properties have other names
(`names_of_sample`), other types (`type_confused`), or are fewer (`fewer_panics`) or more (`more_left_out`); samples with
nil (`nil_panics`); and what C17, C69 and C152 leave out. -/
theorem event_shown_partial (up : Bytes → Prop) (σ₀ σ : Store) (event location : Bytes) (nanos : Int64) (space : Bytes)
    (sample args : List Iface) (ps₀ ps : List P) (hs : Given up σ₀ sample ps₀) (ha : Given up σ args ps)
    (hsame : ps₀.map (fun p => (p.key, p.type)) = ps.map (fun p => (p.key, p.type))) (hok : ∀ p ∈ ps, p.Ok up)
    (he : ∀ c ∈ event, plain c = true) :
    ∃ f text N, formatterOf σ₀ event location sample = some f ∧
      parseDocument (text ++ asc "}") = some (.obj ((asc "event", .str event) :: ps.map fun p => (p.key, p.json))) ∧
      ∀ n, N ≤ n → f.format σ n args nanos space =
        .ok (space ++ (text ++ asc ",timestamp:" ++ intText nanos.toInt ++ asc ",location:\"" ++ location ++ asc "\"}\n")) := by
  obtain ⟨texts, h1, h2, N, hN⟩ := formatProps_given up σ args ps ha hok [] (space ++ (asc "{\"event\":\"" ++ event ++ asc "\""))
  obtain ⟨text, ht, hp⟩ := json_props_partial event location nanos texts he h2
  refine ⟨_, text, N, by rw [formatterOf, propsOf_given up σ₀ sample ps₀ hs 0], ?_, ?_⟩
  · rw [hp, h1]
  · intro n hn
    have := hN n hn
    rw [List.nil_append, List.length_nil] at this
    simp only [JsonFormatter.format]
    rw [hsame, this, Res.andThen, ← ht, jsonLine, i64_text, i64_text]
    simp only [List.append_assoc]

/-- Memory with the name `user` and the numbers 7 and 8, and the texts `age` and `x`. -/
def mem : Store where
  cell a :=
    if a = 1 then some (.val (.str (asc "user")))
    else if a = 2 then some (.val (.i64 7))
    else if a = 3 then some (.val (.i64 8))
    else if a = 4 then some (.val (.str (asc "age")))
    else if a = 5 then some (.val (.str (asc "x")))
    else none
  maps _ := none

example : Given (fun _ => False) mem [some (.str, 1), some (.int64, 3)] [⟨asc "user", .int64, .i64 8, .num (mkRat 8 1)⟩] :=
  .cons ⟨asc "user", .int64, .i64 8, .num (mkRat 8 1)⟩ 1 3 [] [] rfl
    (Or.inr ⟨fun h => (by cases h), by simp [Holds, isLeaf, Store.read, mem]⟩) .nil

example : ∃ f, formatterOf mem (asc "login") (asc "f @ a.go:1") [some (.str, 1), some (.int64, 2)] = some f ∧
    f.format mem 5 [some (.str, 1), some (.int64, 3)] 9 [] =
      .ok (asc "{\"event\":\"login\",\"user\":8,timestamp:9,location:\"f @ a.go:1\"}\n") :=
  ⟨_, rfl, by decide +kernel⟩

/-- The indexes kept are those behind the names. -/
theorem propsOf_idx (σ : Store) : ∀ (i : Nat) (sample : List Iface) (ps : List JsonProp), propsOf σ i sample = some ps →
    ∀ p ∈ ps, ∃ j, p.idx = i + (2 * j + 1) ∧ p.idx < i + sample.length
  | i, [], ps, h, p, hp => by
    simp only [propsOf, Option.some.injEq] at h
    subst h
    simp at hp
  | _, [_], _, h, _, _ => by simp [propsOf] at h
  | i, k :: v :: rest, ps, h, p, hp => by
    rw [propsOf] at h
    cases hk : asString σ k with
    | none => simp [hk] at h
    | some key =>
      cases v with
      | none => simp [hk] at h
      | some tw =>
        cases hr : propsOf σ (i + 2) rest with
        | none => simp [hk, hr] at h
        | some qs =>
          simp only [hk, hr, Option.some.injEq] at h
          subst h
          rcases List.mem_cons.mp hp with rfl | hp
          · exact ⟨0, by simp, by simp⟩
          · obtain ⟨j, hj, hl⟩ := propsOf_idx σ (i + 2) rest qs hr p hp
            exact ⟨j + 1, by omega, by simp only [List.length_cons]; omega⟩

theorem formatProps_congr (σ : Store) (fuel : Nat) (args args' : List Iface) : ∀ (ps : List JsonProp) (space : Bytes),
    (∀ p ∈ ps, args[p.idx]? = args'[p.idx]?) → formatProps σ fuel args ps space = formatProps σ fuel args' ps space
  | [], _, _ => rfl
  | p :: ps, space, h => by
    rw [formatProps, formatProps, ← h p (by simp)]
    cases args[p.idx]? with
    | none => rfl
    | some v =>
      simp only
      cases encodeAt σ fuel p.type (encoderOf false [] p.type) (dataLoc p.type ((v.map Prod.snd).getD 0)) (space ++ [44] ++ p.pfx) with
      | ok out => exact formatProps_congr σ fuel args args' ps out fun q hq => h q (by simp [hq])
      | _ => rfl

/-- The formatter has the properties of the sample. -/
theorem formatterOf_props {σ : Store} {event location : Bytes} {sample : List Iface} {f : JsonFormatter}
    (h : formatterOf σ event location sample = some f) : propsOf σ 0 sample = some f.props := by
  unfold formatterOf at h
  cases hp : propsOf σ 0 sample with
  | none => simp [hp] at h
  | some ps =>
    simp only [hp, Option.some.injEq] at h
    subst h
    rfl

/-- C155, negation: the names of an event's properties are not looked at, so that the names shown are those of the event the
handler was made for. -/
theorem names_of_sample (σ₀ σ : Store) (event location : Bytes) (sample : List Iface) (f : JsonFormatter)
    (h : formatterOf σ₀ event location sample = some f) (fuel : Nat) (nanos : Int64) (space : Bytes) (args args' : List Iface)
    (hv : ∀ i, args[2 * i + 1]? = args'[2 * i + 1]?) :
    f.format σ fuel args nanos space = f.format σ fuel args' nanos space := by
  unfold JsonFormatter.format
  rw [formatProps_congr σ fuel args args' f.props]
  intro p hp
  obtain ⟨j, hj, _⟩ := propsOf_idx σ₀ 0 sample f.props (formatterOf_props h) p hp
  rw [hj, Nat.zero_add]
  exact hv j

example : ∃ f, formatterOf mem (asc "login") (asc "f @ a.go:1") [some (.str, 1), some (.int64, 2)] = some f ∧
    f.format mem 5 [some (.str, 4), some (.int64, 3)] 9 [] =
      .ok (asc "{\"event\":\"login\",\"user\":8,timestamp:9,location:\"f @ a.go:1\"}\n") :=
  ⟨_, rfl, by decide +kernel⟩

/-- C155, negation: a property that is of another type than in the event the handler was made for is read as what it is
not. -/
theorem type_confused (σ₀ σ : Store) (event location : Bytes) (t : Ty) (k₀ : Iface) (w₀ : Nat) (rest : List Iface) (f : JsonFormatter)
    (h : formatterOf σ₀ event location (k₀ :: some (t, w₀) :: rest) = some f) (hl : ∃ v, isLeaf t v = true)
    (k : Iface) (t' : Ty) (w : Nat) (v : Val) (hc : σ.cell w = some (.val v)) (hv : isLeaf t v = false) (more : List Iface)
    (fuel : Nat) (nanos : Int64) (space : Bytes) :
    f.format σ (fuel + 1) (k :: some (t', w) :: more) nanos space = .fault := by
  have hp := formatterOf_props h
  rw [propsOf] at hp
  cases hk : asString σ₀ k₀ with
  | none => simp [hk] at hp
  | some key =>
    cases hr : propsOf σ₀ (0 + 2) rest with
    | none => simp [hk, hr] at hp
    | some qs =>
      simp only [hk, hr, Option.some.injEq] at hp
      unfold JsonFormatter.format
      rw [← hp, formatProps]
      simp only [Nat.zero_add, List.getElem?_cons_succ, List.getElem?_cons_zero, Option.map_some, Option.getD_some]
      obtain ⟨u, hu⟩ := hl
      have hf : ∀ sp, encodeAt σ (fuel + 1) t (encoderOf false [] t) (dataLoc t w) sp = .fault := by
        intro sp
        cases t <;> simp [isLeaf] at hu <;>
          simp [encodeAt, encoderOf, dataLoc, likePtr, Store.read, hc, leafAt] <;>
          cases v <;> simp_all [isLeaf, fits]
      rw [hf]
      rfl

example : ∃ f, formatterOf mem (asc "login") (asc "f @ a.go:1") [some (.str, 1), some (.str, 5)] = some f ∧
    f.format mem 5 [some (.str, 1), some (.int64, 3)] 9 [] = .fault :=
  ⟨_, rfl, type_confused mem mem (asc "login") (asc "f @ a.go:1") .str (some (.str, 1)) 5 [] _ rfl ⟨.str [], rfl⟩ _ .int64 3 (.i64 8) rfl rfl [] 4 9 []⟩

/-- C155, negation: an event with fewer properties panics (the properties up to there being encoded); here, the first
missing one being the first of all. -/
theorem fewer_panics (σ₀ σ : Store) (event location : Bytes) (k₀ v₀ : Iface) (rest : List Iface) (f : JsonFormatter)
    (h : formatterOf σ₀ event location (k₀ :: v₀ :: rest) = some f) (fuel : Nat) (nanos : Int64) (space : Bytes) :
    f.format σ fuel [] nanos space = .panic := by
  have hp := formatterOf_props h
  unfold JsonFormatter.format
  cases hq : f.props with
  | nil =>
    rw [hq, propsOf] at hp
    cases hk : asString σ₀ k₀ <;> cases v₀ <;> cases hr : propsOf σ₀ (0 + 2) rest <;> simp [hk, hr] at hp
  | cons p ps => simp [formatProps, Res.andThen]

/-- C155, negation: properties beyond those of the event the handler was made for are left out. -/
theorem more_left_out (σ₀ σ : Store) (event location : Bytes) (sample : List Iface) (f : JsonFormatter)
    (h : formatterOf σ₀ event location sample = some f) (fuel : Nat) (nanos : Int64) (space : Bytes) (args more : List Iface)
    (hlen : sample.length ≤ args.length) :
    f.format σ fuel (args ++ more) nanos space = f.format σ fuel args nanos space := by
  unfold JsonFormatter.format
  rw [formatProps_congr σ fuel (args ++ more) args f.props]
  intro p hp
  obtain ⟨j, _, hl⟩ := propsOf_idx σ₀ 0 sample f.props (formatterOf_props h) p hp
  exact List.getElem?_append_left (by omega)

/-- C155, negation: no handler can be made for an event with nil among its values. -/
theorem nil_panics (up : Bytes → Prop) (σ : Store) (event location : Bytes) (args : List Iface) (ps : List P)
    (h : Given up σ args ps) (k : Iface) (rest : List Iface) :
    formatterOf σ event location (args ++ k :: none :: rest) = none := by
  have key : ∀ i, propsOf σ i (args ++ k :: none :: rest) = none := by
    induction h with
    | nil =>
      intro i
      simp only [List.nil_append, propsOf]
      cases asString σ k <;> rfl
    | cons p kw w args ps hk hv h ih =>
      intro i
      simp only [List.cons_append, propsOf, asString, hk, ih]
  rw [formatterOf, key]

example : formatterOf mem (asc "login") (asc "f @ a.go:1") [some (.str, 1), none] = none := rfl

end Verif.Countlog.JsonLine
