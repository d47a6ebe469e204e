import Verif.Assert.Value

/-!
# C112, C113: the HTTP assertions

Model of test/testify/assert/http_assertions.go.  A handler is what it does with the response writer, given the query of the request; of the request
nothing else is represented.  `accepts` stands for the checks of `http.NewRequest`.
-/

namespace Verif.Assert.Http

/-! ### Model -/

/-- What a handler does with its `http.ResponseWriter` (http_assertions.go 19, 91). -/
inductive Act where
  | writeHeader (code : Int)
  | write (b : Bytes)

/-- `httptest.ResponseRecorder` as made at http_assertions.go 14, 86. -/
structure Recorder where
  code : Int
  wrote : Bool
  body : Bytes

/-- `httptest.NewRecorder`, http_assertions.go 14, 86. -/
def Recorder.new : Recorder := ⟨200, false, []⟩

/-- `WriteHeader` and `Write` of the recorder used at http_assertions.go 14-20: only the first status counts; writing sends status 200 if none was sent. -/
def Recorder.act (w : Recorder) : Act → Recorder
  | .writeHeader c => if w.wrote then w else { w with code := c, wrote := true }
  | .write b =>
    let w := if w.wrote then w else { w with code := 200, wrote := true }
    { w with body := w.body ++ b }

/-- Everything a handler depends on: what `http.NewRequest` accepts (method and URL), and what the handler does for the raw query of the
request (http_assertions.go 13-21). -/
structure World where
  accepts : Bytes → Bytes → Bool
  handler : Bytes → List Act

/-- `strings.Index` of one byte, as `url.Parse` uses it behind http_assertions.go 15: the text before and behind the first occurrence. -/
def cut (c : UInt8) : Bytes → Bytes × Bytes
  | [] => ([], [])
  | b :: s => if b = c then ([], s) else (b :: (cut c s).1, (cut c s).2)

/-- `RawQuery` of the request `http.NewRequest` makes (http_assertions.go 15): `url.Parse` takes off the fragment at the first `#` and then the query
at the first `?`. -/
def rawQuery (url : Bytes) : Bytes := (cut 63 (cut 35 url).1).2

/-- Serving the request, http_assertions.go 19 and 91: the handler's actions on a new recorder. -/
def serve (W : World) (url : Bytes) : Recorder := (W.handler (rawQuery url)).foldl Recorder.act .new

/-- `httpCode`, http_assertions.go 13-21; `enc` is `values.Encode()`, `none` the error. -/
def httpCode (W : World) (method url enc : Bytes) : Option Int :=
  if W.accepts method (url ++ asc "?" ++ enc) then some (serve W (url ++ asc "?" ++ enc)).code else none

/-- `HTTPSuccess`, http_assertions.go 28-41; the message arguments are not passed on. -/
def httpSuccess (W : World) (method url enc : Bytes) : Outcome :=
  match httpCode W method url enc with
  | none => fail true
  | some code => if code ≥ 200 ∧ code ≤ 206 then .ret true false else fail true

/-- `HTTPRedirect`, http_assertions.go 48-61. -/
def httpRedirect (W : World) (method url enc : Bytes) : Outcome :=
  match httpCode W method url enc with
  | none => fail true
  | some code => if code ≥ 300 ∧ code ≤ 307 then .ret true false else fail true

/-- `HTTPError`, http_assertions.go 68-81. -/
def httpError (W : World) (method url enc : Bytes) : Outcome :=
  match httpCode W method url enc with
  | none => fail true
  | some code => if code ≥ 400 then .ret true false else fail true

/-- `HTTPBody`, http_assertions.go 85-93. -/
def httpBody (W : World) (method url enc : Bytes) : Bytes :=
  if W.accepts method (url ++ asc "?" ++ enc) then (serve W (url ++ asc "?" ++ enc)).body else []

/-- `HTTPBodyContains`, http_assertions.go 101-110; `str` is the text of the argument. -/
def bodyContains (W : World) (method url enc str : Bytes) : Outcome :=
  if str <:+: httpBody W method url enc then .ret true false else fail true

/-- `HTTPBodyNotContains`, http_assertions.go 118-127. -/
def bodyNotContains (W : World) (method url enc str : Bytes) : Outcome :=
  if str <:+: httpBody W method url enc then fail true else .ret true false

/-! ### Specification -/

/-- The status a client sees: the one of the first `WriteHeader`, if nothing is written before it; 200 otherwise. -/
inductive Status : List Act → Int → Prop where
  | none : Status [] 200
  | header (c acts) : Status (.writeHeader c :: acts) c
  | body (b acts) : Status (.write b :: acts) 200

/-- The body a client sees: all that is written, in order. -/
def bodyOf (acts : List Act) : Bytes := acts.flatMap fun
  | .write b => b
  | .writeHeader _ => []

/-- The query of a URL with given query parameters, when the URL has none: no question mark or number sign in it, and none in the encoded
parameters (`Encode` escapes them). -/
def Bare (s : Bytes) : Prop := (63 : UInt8) ∉ s ∧ (35 : UInt8) ∉ s

/-! ### Proofs -/

theorem act_wrote (acts : List Act) : ∀ (w : Recorder), w.wrote = true →
    (acts.foldl Recorder.act w).code = w.code ∧ (acts.foldl Recorder.act w).body = w.body ++ bodyOf acts := by
  induction acts with
  | nil => intro w _; simp [bodyOf]
  | cons a acts ih =>
    intro w hw
    rw [List.foldl_cons]
    cases a with
    | writeHeader c =>
      have : w.act (.writeHeader c) = w := by simp [Recorder.act, hw]
      rw [this]
      exact ih w hw
    | write b =>
      have : w.act (.write b) = { w with body := w.body ++ b } := by simp [Recorder.act, hw]
      rw [this]
      have := ih { w with body := w.body ++ b } hw
      refine ⟨this.1, ?_⟩
      rw [this.2]
      simp [bodyOf]

/-- The recorder sees what a client sees. -/
theorem serve_right (W : World) (url : Bytes) :
    Status (W.handler (rawQuery url)) (serve W url).code ∧ (serve W url).body = bodyOf (W.handler (rawQuery url)) := by
  unfold serve
  cases W.handler (rawQuery url) with
  | nil => exact ⟨.none, rfl⟩
  | cons a acts =>
    rw [List.foldl_cons]
    cases a with
    | writeHeader c =>
      have := act_wrote acts ⟨c, true, []⟩ rfl
      have h : Recorder.new.act (.writeHeader c) = ⟨c, true, []⟩ := rfl
      rw [h, this.1, this.2]
      exact ⟨.header c acts, by simp [bodyOf]⟩
    | write b =>
      have := act_wrote acts ⟨200, true, [] ++ b⟩ rfl
      have h : Recorder.new.act (.write b) = ⟨200, true, [] ++ b⟩ := rfl
      rw [h, this.1, this.2]
      exact ⟨.body b acts, by simp [bodyOf]⟩

theorem status_unique {acts : List Act} {c d : Int} (h : Status acts c) (h' : Status acts d) : c = d := by
  cases h <;> cases h' <;> rfl

/-- C112, partial: for a request that can be made, the assertions about the status pass exactly if the handler's status is 200 to 206, 300 to 307, or 400 and
above; for one that cannot they fail without calling it. -/
theorem status_partial (W : World) (method url enc : Bytes) :
    (W.accepts method (url ++ asc "?" ++ enc) = true → ∀ c, Status (W.handler (rawQuery (url ++ asc "?" ++ enc))) c →
      (httpSuccess W method url enc = .ret true false ↔ 200 ≤ c ∧ c ≤ 206) ∧
      (httpRedirect W method url enc = .ret true false ↔ 300 ≤ c ∧ c ≤ 307) ∧
      (httpError W method url enc = .ret true false ↔ 400 ≤ c)) ∧
    (W.accepts method (url ++ asc "?" ++ enc) = false →
      httpSuccess W method url enc = .ret false true ∧ httpRedirect W method url enc = .ret false true ∧ httpError W method url enc = .ret false true) := by
  constructor
  · intro ha c hc
    have hs := status_unique hc (serve_right W _).1
    simp only [httpSuccess, httpRedirect, httpError, httpCode, ha, if_true, ← hs]
    refine ⟨?_, ?_, ?_⟩
    · by_cases h : c ≥ 200 ∧ c ≤ 206
      · rw [if_pos h]; simp; omega
      · rw [if_neg h]; simp [fail]; omega
    · by_cases h : c ≥ 300 ∧ c ≤ 307
      · rw [if_pos h]; simp; omega
      · rw [if_neg h]; simp [fail]; omega
    · by_cases h : c ≥ 400
      · rw [if_pos h]; simp; omega
      · rw [if_neg h]; simp [fail]; omega
  · intro ha
    have hc : httpCode W method url enc = none := by unfold httpCode; rw [ha]; rfl
    simp [httpSuccess, httpRedirect, httpError, hc, fail]

/-- C112: the status assertions exclude each other, report what they return, and the ones not passed fail the test. -/
theorem status_one (W : World) (method url enc : Bytes) :
    (∀ o ∈ [httpSuccess W method url enc, httpRedirect W method url enc, httpError W method url enc], o = .ret true false ∨ o = .ret false true) ∧
    ([httpSuccess W method url enc, httpRedirect W method url enc, httpError W method url enc].count (.ret true false) ≤ 1) := by
  unfold httpSuccess httpRedirect httpError
  cases httpCode W method url enc with
  | none => decide
  | some c =>
    simp only
    by_cases h1 : c ≥ 200 ∧ c ≤ 206
    · rw [if_pos h1, if_neg (by omega), if_neg (by omega)]; decide
    · rw [if_neg h1]
      by_cases h2 : c ≥ 300 ∧ c ≤ 307
      · rw [if_pos h2, if_neg (by omega)]; decide
      · rw [if_neg h2]
        by_cases h3 : c ≥ 400
        · rw [if_pos h3]; decide
        · rw [if_neg h3]; decide

/-- A world with a handler that answers with a status. -/
def answering (c : Int) : World := ⟨fun m _ => decide (m ≠ asc "BAD METHOD"), fun _ => [.writeHeader c, .write (asc "hello")]⟩

example : httpSuccess (answering 201) (asc "GET") (asc "/a") [] = .ret true false ∧ httpError (answering 503) (asc "GET") (asc "/a") [] = .ret true false := by
  decide

/-- C112 is false: statuses that are successes (226 IM Used) or redirections (308 Permanent Redirect) are in no class. -/
theorem status_left_out : httpSuccess (answering 226) (asc "GET") (asc "/a") [] = .ret false true ∧
    httpRedirect (answering 308) (asc "GET") (asc "/a") [] = .ret false true ∧ httpError (answering 308) (asc "GET") (asc "/a") [] = .ret false true := by
  decide

/-- C112, partial: for a request that can be made, the assertions about the body decide whether the text is part of what the handler writes, and exactly
one of them passes and the other one fails. -/
theorem body_partial (W : World) (method url enc str : Bytes) (ha : W.accepts method (url ++ asc "?" ++ enc) = true) :
    (bodyContains W method url enc str = .ret true false ↔ ∃ p q, bodyOf (W.handler (rawQuery (url ++ asc "?" ++ enc))) = p ++ str ++ q) ∧
    (bodyNotContains W method url enc str = .ret true false ↔ ¬∃ p q, bodyOf (W.handler (rawQuery (url ++ asc "?" ++ enc))) = p ++ str ++ q) ∧
    (bodyContains W method url enc str = .ret false true ↔ bodyNotContains W method url enc str = .ret true false) ∧
    (bodyNotContains W method url enc str = .ret false true ↔ bodyContains W method url enc str = .ret true false) := by
  unfold bodyContains bodyNotContains httpBody
  rw [if_pos ha, (serve_right W _).2]
  have h : ∀ s : Bytes, str <:+: s ↔ ∃ p q, s = p ++ str ++ q := fun s =>
    ⟨fun ⟨p, q, h⟩ => ⟨p, q, h.symm⟩, fun ⟨p, q, h⟩ => ⟨p, q, h.symm⟩⟩
  rw [← h]
  simp [fail]

example : bodyContains (answering 200) (asc "GET") (asc "/a") [] (asc "ell") = .ret true false := by decide

/-- C112 is false: if the request cannot be made, the assertion that the body does not contain a text passes for every text but the empty one, whatever the handler
would write; and that it contains the empty text passes. -/
theorem body_without_request (W : World) (method url enc str : Bytes) (ha : W.accepts method (url ++ asc "?" ++ enc) = false) :
    (str ≠ [] → bodyNotContains W method url enc str = .ret true false) ∧ bodyContains W method url enc [] = .ret true false := by
  have hb : httpBody W method url enc = [] := by unfold httpBody; rw [ha]; rfl
  unfold bodyContains bodyNotContains
  rw [hb]
  constructor
  · intro h
    rw [if_neg (by simpa using h)]
  · rw [if_pos (by simp)]

example : bodyNotContains (answering 200) (asc "BAD METHOD") (asc "/a") [] (asc "hello") = .ret true false ∧
    bodyNotContains (answering 200) (asc "GET") (asc "/a") [] (asc "hello") = .ret false true := by decide

/-! ### C113: the query -/

theorem cut_none (c : UInt8) : ∀ (s : Bytes), c ∉ s → cut c s = (s, [])
  | [], _ => rfl
  | b :: s, h => by
    simp only [List.mem_cons, not_or] at h
    rw [cut, if_neg (fun he => h.1 he.symm), cut_none c s h.2]

theorem cut_first (c : UInt8) : ∀ (s t : Bytes), c ∉ s → cut c (s ++ c :: t) = (s, t)
  | [], t, _ => by simp [cut]
  | b :: s, t, h => by
    simp only [List.mem_cons, not_or] at h
    rw [List.cons_append, cut, if_neg (fun he => h.1 he.symm), cut_first c s t h.2]

theorem question : asc "?" = [63] := by decide

/-- C113, partial: for a URL without a query and a fragment of its own, the handler's query is what the values are encoded to. -/
theorem query_partial (url enc : Bytes) (hu : Bare url) (he : Bare enc) : rawQuery (url ++ asc "?" ++ enc) = enc := by
  unfold rawQuery
  rw [question, cut_none 35, List.append_assoc, List.singleton_append, cut_first 63 url enc hu.1]
  simp only [List.mem_append, List.mem_singleton, not_or]
  exact ⟨⟨hu.2, by decide⟩, he.2⟩

example : Bare (asc "http://example.com/a") ∧ Bare (asc "a=b&a=c") := by unfold Bare; decide

/-- C113 is false of every URL with a query: what the values are encoded to is put behind a second question mark, so that it becomes part of the
last value of that query. -/
theorem query_twice (base query enc : Bytes) (hb : Bare base) (hq : (35 : UInt8) ∉ query) (he : Bare enc) :
    rawQuery (base ++ asc "?" ++ query ++ asc "?" ++ enc) = query ++ asc "?" ++ enc := by
  unfold rawQuery
  rw [question, cut_none 35]
  · rw [show base ++ [63] ++ query ++ [63] ++ enc = base ++ 63 :: (query ++ [63] ++ enc) by simp]
    rw [cut_first 63 base _ hb.1]
  · simp only [List.mem_append, List.mem_singleton, not_or]
    exact ⟨⟨⟨⟨hb.2, by decide⟩, hq⟩, by decide⟩, he.2⟩

example : rawQuery (asc "/find?x=1" ++ asc "?" ++ asc "a=b") = asc "x=1?a=b" := by decide +kernel

/-- C113 is false of every URL with a fragment: the values are lost. -/
theorem query_fragment (base frag enc : Bytes) (hb : (35 : UInt8) ∉ base) : rawQuery (base ++ asc "#" ++ frag ++ asc "?" ++ enc) = rawQuery base := by
  unfold rawQuery
  rw [show asc "#" = [35] by decide, show base ++ [35] ++ frag ++ asc "?" ++ enc = base ++ 35 :: (frag ++ asc "?" ++ enc) by simp]
  rw [cut_first 35 base _ hb, cut_none 35 base hb]

example : rawQuery (asc "/find#top" ++ asc "?" ++ asc "a=b") = [] := by decide +kernel

end Verif.Assert.Http
