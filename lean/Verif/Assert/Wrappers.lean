import Verif.Assert.Value
import Verif.Basic

/-!
# C125: messages and the wrappers of package assert

Every assertion takes a message.  The functions ending in f and the methods of `Assertions` hand their parameters on
(test/testify/assert/assertion_format.go and assertion_forward.go); here their bodies are tables, with the lines of each, and a small
interpreter for calls.  The places where an assertion calls `Fail` or another assertion are a table too.
-/

namespace Verif.Wrappers

/-- The assertions that take a message, test/testify/assert/assertions.go and http_assertions.go; `failure` is `Fail`. -/
inductive Base
  /-- `Condition`, assertions.go 756-762 -/
  | condition
  /-- `Contains`, assertions.go 585-597 -/
  | contains
  /-- `DirExists`, assertions.go 1150-1162 -/
  | dirExists
  /-- `ElementsMatch`, assertions.go 706-753 -/
  | elementsMatch
  /-- `Empty`, assertions.go 439-448 -/
  | empty
  /-- `Equal`, assertions.go 304-320 -/
  | equal
  /-- `EqualError`, assertions.go 1059-1072 -/
  | equalError
  /-- `EqualValues`, assertions.go 342-354 -/
  | equalValues
  /-- `Error`, assertions.go 1045-1052 -/
  | isError
  /-- `Exactly`, assertions.go 359-370 -/
  | exactly
  /-- `Fail`, assertions.go 228-241 -/
  | failure
  /-- `FailNow`, assertions.go 210-225 -/
  | failNow
  /-- `False`, assertions.go 511-519 -/
  | isFalse
  /-- `FileExists`, assertions.go 1135-1147 -/
  | fileExists
  /-- `HTTPBodyContains`, http_assertions.go 101-110 -/
  | httpBodyContains
  /-- `HTTPBodyNotContains`, http_assertions.go 118-127 -/
  | httpBodyNotContains
  /-- `HTTPError`, http_assertions.go 68-81 -/
  | httpError
  /-- `HTTPRedirect`, http_assertions.go 48-61 -/
  | httpRedirect
  /-- `HTTPSuccess`, http_assertions.go 28-41 -/
  | httpSuccess
  /-- `Implements`, assertions.go 274-285 -/
  | implements
  /-- `InDelta`, assertions.go 883-906 -/
  | inDelta
  /-- `InDeltaMapValues`, assertions.go 930-968 -/
  | inDeltaMapValues
  /-- `InDeltaSlice`, assertions.go 909-927 -/
  | inDeltaSlice
  /-- `InEpsilon`, assertions.go 987-998 -/
  | inEpsilon
  /-- `InEpsilonSlice`, assertions.go 1001-1019 -/
  | inEpsilonSlice
  /-- `IsType`, assertions.go 288-295 -/
  | isType
  /-- `JSONEq`, assertions.go 1167-1179 -/
  | jsonEq
  /-- `Len`, assertions.go 483-493 -/
  | len
  /-- `Nil`, assertions.go 400-405 -/
  | isNil
  /-- `NoError`, assertions.go 1031-1037 -/
  | noError
  /-- `NotContains`, assertions.go 605-617 -/
  | notContains
  /-- `NotEmpty`, assertions.go 456-465 -/
  | notEmpty
  /-- `NotEqual`, assertions.go 527-539 -/
  | notEqual
  /-- `NotNil`, assertions.go 375-380 -/
  | notNil
  /-- `NotPanics`, assertions.go 822-829 -/
  | notPanics
  /-- `NotRegexp`, assertions.go 1107-1116 -/
  | notRegexp
  /-- `NotSubset`, assertions.go 664-699 -/
  | notSubset
  /-- `NotZero`, assertions.go 1127-1132 -/
  | notZero
  /-- `Panics`, assertions.go 793-800 -/
  | panics
  /-- `PanicsWithValue`, assertions.go 806-817 -/
  | panicsWithValue
  /-- `Regexp`, assertions.go 1092-1101 -/
  | regexp
  /-- `Subset`, assertions.go 623-658 -/
  | subset
  /-- `True`, assertions.go 498-506 -/
  | isTrue
  /-- `WithinDuration`, assertions.go 834-842 -/
  | withinDuration
  /-- `Zero`, assertions.go 1119-1124 -/
  | zero
  deriving DecidableEq

/-- The names of parameters, test/testify/assert/assertions.go 210-1167 and http_assertions.go 28-118. -/
inductive Par
  | actual | comp | contains | delta | epsilon | err | errString | expected | expectedType | f | failureMessage | handler | i | interfaceObject | length | list | listA | listB | method | object | path | rx | s | str | subset | theError | url | value | values
  deriving DecidableEq

/-- The parameters of an assertion between `t` and the message, test/testify/assert/assertions.go and http_assertions.go. -/
def params : Base → List Par
  | .condition => [.comp] -- assertions.go 756
  | .contains => [.s, .contains] -- assertions.go 585
  | .dirExists => [.path] -- assertions.go 1150
  | .elementsMatch => [.listA, .listB] -- assertions.go 706
  | .empty => [.object] -- assertions.go 439
  | .equal => [.expected, .actual] -- assertions.go 304
  | .equalError => [.theError, .errString] -- assertions.go 1059
  | .equalValues => [.expected, .actual] -- assertions.go 342
  | .isError => [.err] -- assertions.go 1045
  | .exactly => [.expected, .actual] -- assertions.go 359
  | .failure => [.failureMessage] -- assertions.go 228
  | .failNow => [.failureMessage] -- assertions.go 210
  | .isFalse => [.value] -- assertions.go 511
  | .fileExists => [.path] -- assertions.go 1135
  | .httpBodyContains => [.handler, .method, .url, .values, .str] -- http_assertions.go 101
  | .httpBodyNotContains => [.handler, .method, .url, .values, .str] -- http_assertions.go 118
  | .httpError => [.handler, .method, .url, .values] -- http_assertions.go 68
  | .httpRedirect => [.handler, .method, .url, .values] -- http_assertions.go 48
  | .httpSuccess => [.handler, .method, .url, .values] -- http_assertions.go 28
  | .implements => [.interfaceObject, .object] -- assertions.go 274
  | .inDelta => [.expected, .actual, .delta] -- assertions.go 883
  | .inDeltaMapValues => [.expected, .actual, .delta] -- assertions.go 930
  | .inDeltaSlice => [.expected, .actual, .delta] -- assertions.go 909
  | .inEpsilon => [.expected, .actual, .epsilon] -- assertions.go 987
  | .inEpsilonSlice => [.expected, .actual, .epsilon] -- assertions.go 1001
  | .isType => [.expectedType, .object] -- assertions.go 288
  | .jsonEq => [.expected, .actual] -- assertions.go 1167
  | .len => [.object, .length] -- assertions.go 483
  | .isNil => [.object] -- assertions.go 400
  | .noError => [.err] -- assertions.go 1031
  | .notContains => [.s, .contains] -- assertions.go 605
  | .notEmpty => [.object] -- assertions.go 456
  | .notEqual => [.expected, .actual] -- assertions.go 527
  | .notNil => [.object] -- assertions.go 375
  | .notPanics => [.f] -- assertions.go 822
  | .notRegexp => [.rx, .str] -- assertions.go 1107
  | .notSubset => [.list, .subset] -- assertions.go 664
  | .notZero => [.i] -- assertions.go 1127
  | .panics => [.f] -- assertions.go 793
  | .panicsWithValue => [.expected, .f] -- assertions.go 806
  | .regexp => [.rx, .str] -- assertions.go 1092
  | .subset => [.list, .subset] -- assertions.go 623
  | .isTrue => [.value] -- assertions.go 498
  | .withinDuration => [.expected, .actual, .delta] -- assertions.go 834
  | .zero => [.i] -- assertions.go 1119

/-- A function that can be called: an assertion, its variant ending in f (assertion_format.go), or one of the two methods
(assertion_forward.go). -/
inductive Fn
  | base (b : Base)
  | format (b : Base)
  | method (b : Base)
  | methodf (b : Base)

/-- How the message is handed on: `append([]interface{}{msg}, args...)...` (test/testify/assert/assertion_format.go 16), `msgAndArgs...`
(assertion_forward.go 16) or `msg, args...` (assertion_forward.go 21). -/
inductive Pass
  | pack
  | spread
  | pair

/-- A message as it is passed: `msgAndArgs ...interface{}`, or `msg string, args ...interface{}`, test/testify/assert/assertion_format.go 15
and assertion_forward.go 15. -/
inductive Msg (M : Type)
  | many (l : List M)
  | text (m : M) (args : List M)

/-- Handing the message on, test/testify/assert/assertion_format.go 16, assertion_forward.go 16 and 21. -/
def Pass.apply {M : Type} : Pass → Msg M → Option (Msg M)
  | .pack, .text m args => some (.many (m :: args))
  | .spread, .many l => some (.many l)
  | .pair, .text m args => some (.text m args)
  | _, _ => none

/-- The body of a wrapper: its parameters, the function it returns the result of, and the arguments it gives, see `format`,
test/testify/assert/assertion_format.go 15-17. -/
structure Body where
  params : List Par
  callee : Fn
  args : List Par
  msg : Pass

/-- The functions ending in f, test/testify/assert/assertion_format.go. -/
def formatBody : Base → Body
  | .condition => ⟨[.comp], .base .condition, [.comp], .pack⟩ -- 15-17
  | .contains => ⟨[.s, .contains], .base .contains, [.s, .contains], .pack⟩ -- 25-27
  | .dirExists => ⟨[.path], .base .dirExists, [.path], .pack⟩ -- 30-32
  | .elementsMatch => ⟨[.listA, .listB], .base .elementsMatch, [.listA, .listB], .pack⟩ -- 39-41
  | .empty => ⟨[.object], .base .empty, [.object], .pack⟩ -- 47-49
  | .equal => ⟨[.expected, .actual], .base .equal, [.expected, .actual], .pack⟩ -- 58-60
  | .equalError => ⟨[.theError, .errString], .base .equalError, [.theError, .errString], .pack⟩ -- 67-69
  | .equalValues => ⟨[.expected, .actual], .base .equalValues, [.expected, .actual], .pack⟩ -- 75-77
  | .isError => ⟨[.err], .base .isError, [.err], .pack⟩ -- 85-87
  | .exactly => ⟨[.expected, .actual], .base .exactly, [.expected, .actual], .pack⟩ -- 92-94
  | .failure => ⟨[.failureMessage], .base .failure, [.failureMessage], .pack⟩ -- 97-99
  | .failNow => ⟨[.failureMessage], .base .failNow, [.failureMessage], .pack⟩ -- 102-104
  | .isFalse => ⟨[.value], .base .isFalse, [.value], .pack⟩ -- 109-111
  | .fileExists => ⟨[.path], .base .fileExists, [.path], .pack⟩ -- 114-116
  | .httpBodyContains => ⟨[.handler, .method, .url, .values, .str], .base .httpBodyContains, [.handler, .method, .url, .values, .str], .pack⟩ -- 124-126
  | .httpBodyNotContains => ⟨[.handler, .method, .url, .values, .str], .base .httpBodyNotContains, [.handler, .method, .url, .values, .str], .pack⟩ -- 134-136
  | .httpError => ⟨[.handler, .method, .url, .values], .base .httpError, [.handler, .method, .url, .values], .pack⟩ -- 143-145
  | .httpRedirect => ⟨[.handler, .method, .url, .values], .base .httpRedirect, [.handler, .method, .url, .values], .pack⟩ -- 152-154
  | .httpSuccess => ⟨[.handler, .method, .url, .values], .base .httpSuccess, [.handler, .method, .url, .values], .pack⟩ -- 161-163
  | .implements => ⟨[.interfaceObject, .object], .base .implements, [.interfaceObject, .object], .pack⟩ -- 168-170
  | .inDelta => ⟨[.expected, .actual, .delta], .base .inDelta, [.expected, .actual, .delta], .pack⟩ -- 175-177
  | .inDeltaMapValues => ⟨[.expected, .actual, .delta], .base .inDeltaMapValues, [.expected, .actual, .delta], .pack⟩ -- 180-182
  | .inDeltaSlice => ⟨[.expected, .actual, .delta], .base .inDeltaSlice, [.expected, .actual, .delta], .pack⟩ -- 185-187
  | .inEpsilon => ⟨[.expected, .actual, .epsilon], .base .inEpsilon, [.expected, .actual, .epsilon], .pack⟩ -- 190-192
  | .inEpsilonSlice => ⟨[.expected, .actual, .epsilon], .base .inEpsilonSlice, [.expected, .actual, .epsilon], .pack⟩ -- 195-197
  | .isType => ⟨[.expectedType, .object], .base .isType, [.expectedType, .object], .pack⟩ -- 200-202
  | .jsonEq => ⟨[.expected, .actual], .base .jsonEq, [.expected, .actual], .pack⟩ -- 207-209
  | .len => ⟨[.object, .length], .base .len, [.object, .length], .pack⟩ -- 215-217
  | .isNil => ⟨[.object], .base .isNil, [.object], .pack⟩ -- 222-224
  | .noError => ⟨[.err], .base .noError, [.err], .pack⟩ -- 232-234
  | .notContains => ⟨[.s, .contains], .base .notContains, [.s, .contains], .pack⟩ -- 242-244
  | .notEmpty => ⟨[.object], .base .notEmpty, [.object], .pack⟩ -- 252-254
  | .notEqual => ⟨[.expected, .actual], .base .notEqual, [.expected, .actual], .pack⟩ -- 262-264
  | .notNil => ⟨[.object], .base .notNil, [.object], .pack⟩ -- 269-271
  | .notPanics => ⟨[.f], .base .notPanics, [.f], .pack⟩ -- 276-278
  | .notRegexp => ⟨[.rx, .str], .base .notRegexp, [.rx, .str], .pack⟩ -- 284-286
  | .notSubset => ⟨[.list, .subset], .base .notSubset, [.list, .subset], .pack⟩ -- 292-294
  | .notZero => ⟨[.i], .base .notZero, [.i], .pack⟩ -- 297-299
  | .panics => ⟨[.f], .base .panics, [.f], .pack⟩ -- 304-306
  | .panicsWithValue => ⟨[.expected, .f], .base .panicsWithValue, [.expected, .f], .pack⟩ -- 312-314
  | .regexp => ⟨[.rx, .str], .base .regexp, [.rx, .str], .pack⟩ -- 320-322
  | .subset => ⟨[.list, .subset], .base .subset, [.list, .subset], .pack⟩ -- 328-330
  | .isTrue => ⟨[.value], .base .isTrue, [.value], .pack⟩ -- 335-337
  | .withinDuration => ⟨[.expected, .actual, .delta], .base .withinDuration, [.expected, .actual, .delta], .pack⟩ -- 342-344
  | .zero => ⟨[.i], .base .zero, [.i], .pack⟩ -- 347-349

/-- The methods of `Assertions` with the names of the assertions, test/testify/assert/assertion_forward.go. -/
def methodBody : Base → Body
  | .condition => ⟨[.comp], .base .condition, [.comp], .spread⟩ -- 15-17
  | .contains => ⟨[.s, .contains], .base .contains, [.s, .contains], .spread⟩ -- 30-32
  | .dirExists => ⟨[.path], .base .dirExists, [.path], .spread⟩ -- 45-47
  | .elementsMatch => ⟨[.listA, .listB], .base .elementsMatch, [.listA, .listB], .spread⟩ -- 59-61
  | .empty => ⟨[.object], .base .empty, [.object], .spread⟩ -- 76-78
  | .equal => ⟨[.expected, .actual], .base .equal, [.expected, .actual], .spread⟩ -- 95-97
  | .equalError => ⟨[.theError, .errString], .base .equalError, [.theError, .errString], .spread⟩ -- 104-106
  | .equalValues => ⟨[.expected, .actual], .base .equalValues, [.expected, .actual], .spread⟩ -- 121-123
  | .isError => ⟨[.err], .base .isError, [.err], .spread⟩ -- 150-152
  | .exactly => ⟨[.expected, .actual], .base .exactly, [.expected, .actual], .spread⟩ -- 167-169
  | .failure => ⟨[.failureMessage], .base .failure, [.failureMessage], .spread⟩ -- 179-181
  | .failNow => ⟨[.failureMessage], .base .failNow, [.failureMessage], .spread⟩ -- 184-186
  | .isFalse => ⟨[.value], .base .isFalse, [.value], .spread⟩ -- 201-203
  | .fileExists => ⟨[.path], .base .fileExists, [.path], .spread⟩ -- 213-215
  | .httpBodyContains => ⟨[.handler, .method, .url, .values, .str], .base .httpBodyContains, [.handler, .method, .url, .values, .str], .spread⟩ -- 228-230
  | .httpBodyNotContains => ⟨[.handler, .method, .url, .values, .str], .base .httpBodyNotContains, [.handler, .method, .url, .values, .str], .spread⟩ -- 248-250
  | .httpError => ⟨[.handler, .method, .url, .values], .base .httpError, [.handler, .method, .url, .values], .spread⟩ -- 267-269
  | .httpRedirect => ⟨[.handler, .method, .url, .values], .base .httpRedirect, [.handler, .method, .url, .values], .spread⟩ -- 285-287
  | .httpSuccess => ⟨[.handler, .method, .url, .values], .base .httpSuccess, [.handler, .method, .url, .values], .spread⟩ -- 303-305
  | .implements => ⟨[.interfaceObject, .object], .base .implements, [.interfaceObject, .object], .spread⟩ -- 319-321
  | .inDelta => ⟨[.expected, .actual, .delta], .base .inDelta, [.expected, .actual, .delta], .spread⟩ -- 333-335
  | .inDeltaMapValues => ⟨[.expected, .actual, .delta], .base .inDeltaMapValues, [.expected, .actual, .delta], .spread⟩ -- 338-340
  | .inDeltaSlice => ⟨[.expected, .actual, .delta], .base .inDeltaSlice, [.expected, .actual, .delta], .spread⟩ -- 348-350
  | .inEpsilon => ⟨[.expected, .actual, .epsilon], .base .inEpsilon, [.expected, .actual, .epsilon], .spread⟩ -- 365-367
  | .inEpsilonSlice => ⟨[.expected, .actual, .epsilon], .base .inEpsilonSlice, [.expected, .actual, .epsilon], .spread⟩ -- 370-372
  | .isType => ⟨[.expectedType, .object], .base .isType, [.expectedType, .object], .spread⟩ -- 385-387
  | .jsonEq => ⟨[.expected, .actual], .base .jsonEq, [.expected, .actual], .spread⟩ -- 397-399
  | .len => ⟨[.object, .length], .base .len, [.object, .length], .spread⟩ -- 412-414
  | .isNil => ⟨[.object], .base .isNil, [.object], .spread⟩ -- 427-429
  | .noError => ⟨[.err], .base .noError, [.err], .spread⟩ -- 444-446
  | .notContains => ⟨[.s, .contains], .base .notContains, [.s, .contains], .spread⟩ -- 464-466
  | .notEmpty => ⟨[.object], .base .notEmpty, [.object], .spread⟩ -- 484-486
  | .notEqual => ⟨[.expected, .actual], .base .notEqual, [.expected, .actual], .spread⟩ -- 504-506
  | .notNil => ⟨[.object], .base .notNil, [.object], .spread⟩ -- 521-523
  | .notPanics => ⟨[.f], .base .notPanics, [.f], .spread⟩ -- 535-537
  | .notRegexp => ⟨[.rx, .str], .base .notRegexp, [.rx, .str], .spread⟩ -- 550-552
  | .notSubset => ⟨[.list, .subset], .base .notSubset, [.list, .subset], .spread⟩ -- 566-568
  | .notZero => ⟨[.i], .base .notZero, [.i], .spread⟩ -- 579-581
  | .panics => ⟨[.f], .base .panics, [.f], .spread⟩ -- 591-593
  | .panicsWithValue => ⟨[.expected, .f], .base .panicsWithValue, [.expected, .f], .spread⟩ -- 599-601
  | .regexp => ⟨[.rx, .str], .base .regexp, [.rx, .str], .spread⟩ -- 622-624
  | .subset => ⟨[.list, .subset], .base .subset, [.list, .subset], .spread⟩ -- 638-640
  | .isTrue => ⟨[.value], .base .isTrue, [.value], .spread⟩ -- 653-655
  | .withinDuration => ⟨[.expected, .actual, .delta], .base .withinDuration, [.expected, .actual, .delta], .spread⟩ -- 667-669
  | .zero => ⟨[.i], .base .zero, [.i], .spread⟩ -- 679-681

/-- The methods ending in f, test/testify/assert/assertion_forward.go. -/
def methodfBody : Base → Body
  | .condition => ⟨[.comp], .format .condition, [.comp], .pair⟩ -- 20-22
  | .contains => ⟨[.s, .contains], .format .contains, [.s, .contains], .pair⟩ -- 40-42
  | .dirExists => ⟨[.path], .format .dirExists, [.path], .pair⟩ -- 50-52
  | .elementsMatch => ⟨[.listA, .listB], .format .elementsMatch, [.listA, .listB], .pair⟩ -- 68-70
  | .empty => ⟨[.object], .format .empty, [.object], .pair⟩ -- 84-86
  | .equal => ⟨[.expected, .actual], .format .equal, [.expected, .actual], .pair⟩ -- 140-142
  | .equalError => ⟨[.theError, .errString], .format .equalError, [.theError, .errString], .pair⟩ -- 113-115
  | .equalValues => ⟨[.expected, .actual], .format .equalValues, [.expected, .actual], .pair⟩ -- 129-131
  | .isError => ⟨[.err], .format .isError, [.err], .pair⟩ -- 160-162
  | .exactly => ⟨[.expected, .actual], .format .exactly, [.expected, .actual], .pair⟩ -- 174-176
  | .failure => ⟨[.failureMessage], .format .failure, [.failureMessage], .pair⟩ -- 194-196
  | .failNow => ⟨[.failureMessage], .format .failNow, [.failureMessage], .pair⟩ -- 189-191
  | .isFalse => ⟨[.value], .format .isFalse, [.value], .pair⟩ -- 208-210
  | .fileExists => ⟨[.path], .format .fileExists, [.path], .pair⟩ -- 218-220
  | .httpBodyContains => ⟨[.handler, .method, .url, .values, .str], .format .httpBodyContains, [.handler, .method, .url, .values, .str], .pair⟩ -- 238-240
  | .httpBodyNotContains => ⟨[.handler, .method, .url, .values, .str], .format .httpBodyNotContains, [.handler, .method, .url, .values, .str], .pair⟩ -- 258-260
  | .httpError => ⟨[.handler, .method, .url, .values], .format .httpError, [.handler, .method, .url, .values], .pair⟩ -- 276-278
  | .httpRedirect => ⟨[.handler, .method, .url, .values], .format .httpRedirect, [.handler, .method, .url, .values], .pair⟩ -- 294-296
  | .httpSuccess => ⟨[.handler, .method, .url, .values], .format .httpSuccess, [.handler, .method, .url, .values], .pair⟩ -- 312-314
  | .implements => ⟨[.interfaceObject, .object], .format .implements, [.interfaceObject, .object], .pair⟩ -- 326-328
  | .inDelta => ⟨[.expected, .actual, .delta], .format .inDelta, [.expected, .actual, .delta], .pair⟩ -- 360-362
  | .inDeltaMapValues => ⟨[.expected, .actual, .delta], .format .inDeltaMapValues, [.expected, .actual, .delta], .pair⟩ -- 343-345
  | .inDeltaSlice => ⟨[.expected, .actual, .delta], .format .inDeltaSlice, [.expected, .actual, .delta], .pair⟩ -- 353-355
  | .inEpsilon => ⟨[.expected, .actual, .epsilon], .format .inEpsilon, [.expected, .actual, .epsilon], .pair⟩ -- 380-382
  | .inEpsilonSlice => ⟨[.expected, .actual, .epsilon], .format .inEpsilonSlice, [.expected, .actual, .epsilon], .pair⟩ -- 375-377
  | .isType => ⟨[.expectedType, .object], .format .isType, [.expectedType, .object], .pair⟩ -- 390-392
  | .jsonEq => ⟨[.expected, .actual], .format .jsonEq, [.expected, .actual], .pair⟩ -- 404-406
  | .len => ⟨[.object, .length], .format .len, [.object, .length], .pair⟩ -- 420-422
  | .isNil => ⟨[.object], .format .isNil, [.object], .pair⟩ -- 434-436
  | .noError => ⟨[.err], .format .noError, [.err], .pair⟩ -- 454-456
  | .notContains => ⟨[.s, .contains], .format .notContains, [.s, .contains], .pair⟩ -- 474-476
  | .notEmpty => ⟨[.object], .format .notEmpty, [.object], .pair⟩ -- 494-496
  | .notEqual => ⟨[.expected, .actual], .format .notEqual, [.expected, .actual], .pair⟩ -- 514-516
  | .notNil => ⟨[.object], .format .notNil, [.object], .pair⟩ -- 528-530
  | .notPanics => ⟨[.f], .format .notPanics, [.f], .pair⟩ -- 542-544
  | .notRegexp => ⟨[.rx, .str], .format .notRegexp, [.rx, .str], .pair⟩ -- 558-560
  | .notSubset => ⟨[.list, .subset], .format .notSubset, [.list, .subset], .pair⟩ -- 574-576
  | .notZero => ⟨[.i], .format .notZero, [.i], .pair⟩ -- 584-586
  | .panics => ⟨[.f], .format .panics, [.f], .pair⟩ -- 614-616
  | .panicsWithValue => ⟨[.expected, .f], .format .panicsWithValue, [.expected, .f], .pair⟩ -- 607-609
  | .regexp => ⟨[.rx, .str], .format .regexp, [.rx, .str], .pair⟩ -- 630-632
  | .subset => ⟨[.list, .subset], .format .subset, [.list, .subset], .pair⟩ -- 646-648
  | .isTrue => ⟨[.value], .format .isTrue, [.value], .pair⟩ -- 660-662
  | .withinDuration => ⟨[.expected, .actual, .delta], .format .withinDuration, [.expected, .actual, .delta], .pair⟩ -- 674-676
  | .zero => ⟨[.i], .format .zero, [.i], .pair⟩ -- 684-686

/-- The body of a function, `none` for the assertions themselves, test/testify/assert/assertion_format.go and assertion_forward.go. -/
def body : Fn → Option Body
  | .base _ => none
  | .format b => some (formatBody b)
  | .method b => some (methodBody b)
  | .methodf b => some (methodfBody b)

/-- The values of arguments, for a call such as test/testify/assert/assertion_format.go 16: each names a parameter. -/
def values {α : Type} (env : List (Par × α)) : List Par → Option (List α)
  | [] => some []
  | p :: ps =>
    match env.lookup p, values env ps with
    | some x, some xs => some (x :: xs)
    | _, _ => none

/-- Calling a function, test/testify/assert/assertion_format.go 15-17 and assertion_forward.go 15-22: the assertion that is reached,
its arguments and its message.  Three calls are the longest chain; `none` is a call Go would not compile. -/
def call {α M : Type} : Nat → Fn → List α → Msg M → Option (Base × List α × List M)
  | 0, _, _, _ => none
  | n + 1, f, xs, m =>
    match f, body f with
    | .base b, _ =>
      match m with
      | .many l => if xs.length = (params b).length then some (b, xs, l) else none
      | .text _ _ => none
    | _, none => none
    | _, some d =>
      if xs.length = d.params.length then
        match values (d.params.zip xs) d.args, d.msg.apply m with
        | some ys, some m' => call n d.callee ys m'
        | _, _ => none
      else none

/-- A place where an assertion calls `Fail` or another assertion, and whether `msgAndArgs` is passed, see `sites`,
test/testify/assert/assertions.go. -/
inductive Site
  | fail (withMsg : Bool)
  | via (b : Base) (withMsg : Bool)
  deriving DecidableEq

/-- Those places, test/testify/assert/assertions.go and http_assertions.go; `FailNow` calls `Fail` at 211. -/
def sites : Base → List Site
  | .condition => [.fail true] -- assertions.go 759
  | .contains => [.fail true, .fail true] -- assertions.go 589, 592
  | .dirExists => [.fail true, .fail true, .fail true] -- assertions.go 1154, 1156, 1159
  | .elementsMatch => [.fail true, .fail true, .fail true, .fail true] -- assertions.go 715, 719, 729, 748
  | .empty => [.fail true] -- assertions.go 443
  | .equal => [.fail true, .fail true] -- assertions.go 306, 313
  | .equalError => [.via .isError true, .fail true] -- assertions.go 1060, 1067
  | .equalValues => [.fail true] -- assertions.go 347
  | .isError => [.fail true] -- assertions.go 1048
  | .exactly => [.fail true, .via .equal true] -- assertions.go 365, 368
  | .failure => [.fail true] -- assertions.go 228
  | .failNow => [.fail true] -- assertions.go 211
  | .isFalse => [.fail true] -- assertions.go 514
  | .fileExists => [.fail true, .fail true, .fail true] -- assertions.go 1139, 1141, 1144
  | .httpBodyContains => [.fail false] -- http_assertions.go 106
  | .httpBodyNotContains => [.fail false] -- http_assertions.go 123
  | .httpError => [.fail false, .fail false] -- http_assertions.go 71, 77
  | .httpRedirect => [.fail false, .fail false] -- http_assertions.go 51, 57
  | .httpSuccess => [.fail false, .fail false] -- http_assertions.go 31, 37
  | .implements => [.fail true, .fail true] -- assertions.go 278, 281
  | .inDelta => [.fail true, .fail true, .fail true, .fail true] -- assertions.go 889, 893, 897, 902
  | .inDeltaMapValues => [.fail true, .fail true, .fail true, .fail true, .via .inDelta true] -- assertions.go 934, 941, 949, 953, 956
  | .inDeltaSlice => [.fail true, .via .inDelta true] -- assertions.go 913, 920
  | .inEpsilon => [.fail true, .fail true] -- assertions.go 990, 993
  | .inEpsilonSlice => [.fail true, .via .inEpsilon false] -- assertions.go 1005, 1012
  | .isType => [.fail true] -- assertions.go 291
  | .jsonEq => [.fail true, .fail true, .via .equal true] -- assertions.go 1171, 1175, 1178
  | .len => [.fail true, .fail true] -- assertions.go 486, 490
  | .isNil => [.fail true] -- assertions.go 404
  | .noError => [.fail true] -- assertions.go 1033
  | .notContains => [.fail true, .fail true] -- assertions.go 609, 612
  | .notEmpty => [.fail true] -- assertions.go 460
  | .notEqual => [.fail true, .fail true] -- assertions.go 529, 534
  | .notNil => [.fail true] -- assertions.go 379
  | .notPanics => [.fail true] -- assertions.go 825
  | .notRegexp => [.fail true] -- assertions.go 1111
  | .notSubset => [.fail true, .fail true, .fail true, .fail true, .fail true] -- assertions.go 666, 680, 684, 691, 698
  | .notZero => [.fail true] -- assertions.go 1129
  | .panics => [.fail true] -- assertions.go 796
  | .panicsWithValue => [.fail true, .fail true] -- assertions.go 810, 813
  | .regexp => [.fail true] -- assertions.go 1097
  | .subset => [.fail true, .fail true, .fail true, .fail true] -- assertions.go 639, 643, 650, 653
  | .isTrue => [.fail true] -- assertions.go 501
  | .withinDuration => [.fail true] -- assertions.go 838
  | .zero => [.fail true] -- assertions.go 1121

/-- The message that `Fail` shows, `messageFromMsgAndArgs`, test/testify/assert/assertions.go 173-184; `none` if the first argument is not
a string, so that the conversion panics.  `sprintf` is `fmt.Sprintf`, and `str` tells strings. -/
def messageText {M : Type} (str : M → Option Bytes) (sprintf : Bytes → List M → Bytes) : List M → Option Bytes
  | [] => some []
  | [x] => str x
  | x :: xs => (str x).map fun s => sprintf s xs

/-! ### Specification -/

/-- The four ways of passing a message `m` with arguments to an assertion. -/
inductive Passed {M : Type} (b : Base) (m : M) (args : List M) : Fn → Msg M → Prop
  | base : Passed b m args (.base b) (.many (m :: args))
  | format : Passed b m args (.format b) (.text m args)
  | method : Passed b m args (.method b) (.many (m :: args))
  | methodf : Passed b m args (.methodf b) (.text m args)

/-- `Reports b l r`: the assertion `b`, called with the message `l`, can report a failure with the message `r`. -/
inductive Reports {M : Type} : Base → List M → List M → Prop
  | fail (b : Base) (l : List M) (w : Bool) (h : .fail w ∈ sites b) : Reports b l (if w then l else [])
  | via (b c : Base) (l r : List M) (w : Bool) (h : .via c w ∈ sites b) (hr : Reports c (if w then l else []) r) : Reports b l r

/-- The assertions about HTTP handlers. -/
def IsHttp (b : Base) : Prop :=
  b = .httpBodyContains ∨ b = .httpBodyNotContains ∨ b = .httpError ∨ b = .httpRedirect ∨ b = .httpSuccess

/-! ### Wrappers -/

/-- C125: every form of an assertion calls it with its arguments, in their order, and its message. -/
theorem reaches {α M : Type} (b : Base) (xs : List α) (m : M) (args : List M) (hx : xs.length = (params b).length) (f : Fn) (g : Msg M)
    (hp : Passed b m args f g) : call 3 f xs g = some (b, xs, m :: args) := by
  cases hp <;> cases b <;>
    (simp only [params, List.length_cons, List.length_nil] at hx
     match xs, hx with
     | [_], h => first | rfl | (exfalso; simp at h)
     | [_, _], h => first | rfl | (exfalso; simp at h)
     | [_, _, _], h => first | rfl | (exfalso; simp at h)
     | [_, _, _, _], h => first | rfl | (exfalso; simp at h)
     | [_, _, _, _, _], h => first | rfl | (exfalso; simp at h)
     | [], h => exfalso; simp only [List.length_nil] at h; omega
     | _ :: _ :: _ :: _ :: _ :: _ :: _, h => exfalso; simp only [List.length_cons] at h; omega)

/-- C125: without a message there is none. -/
theorem reaches_plain {α M : Type} (b : Base) (xs : List α) (hx : xs.length = (params b).length) :
    call (M := M) 3 (.method b) xs (.many []) = some (b, xs, []) := by
  cases b <;>
    (simp only [params, List.length_cons, List.length_nil] at hx
     match xs, hx with
     | [_], h => first | rfl | (exfalso; simp at h)
     | [_, _], h => first | rfl | (exfalso; simp at h)
     | [_, _, _], h => first | rfl | (exfalso; simp at h)
     | [_, _, _, _], h => first | rfl | (exfalso; simp at h)
     | [_, _, _, _, _], h => first | rfl | (exfalso; simp at h)
     | [], h => exfalso; simp only [List.length_nil] at h; omega
     | _ :: _ :: _ :: _ :: _ :: _ :: _, h => exfalso; simp only [List.length_cons] at h; omega)

/-! ### Messages -/

/-- The assertions that hand the message on in all places, and only call such assertions. -/
theorem kept_sites (b : Base) (h1 : ¬ IsHttp b) (h2 : b ≠ .inEpsilonSlice) :
    (∀ w, .fail w ∈ sites b → w = true) ∧ (∀ c w, .via c w ∈ sites b → w = true ∧ ¬ IsHttp c ∧ c ≠ .inEpsilonSlice) := by
  cases b <;> simp_all [IsHttp, sites]

/-- C125, part: every failure of an assertion that is not about HTTP and is not `InEpsilonSlice` is reported with its message.  Missing:
those six, which drop it, see `http_drops` and `epsilon_drops`. -/
theorem message_kept_partial {M : Type} (b : Base) (l r : List M) (h1 : ¬ IsHttp b) (h2 : b ≠ .inEpsilonSlice) (h : Reports b l r) : r = l := by
  induction h with
  | fail b l w h =>
    rw [(kept_sites b h1 h2).1 w h]
    rfl
  | via b c l r w h _ ih =>
    obtain ⟨g1, g2, g3⟩ := (kept_sites b h1 h2).2 c w h
    rw [ih g2 g3, g1]
    rfl

/-- Every assertion can fail. -/
theorem can_fail {M : Type} (b : Base) (l : List M) : ∃ r, Reports b l r := by
  have h : ∃ w, .fail w ∈ sites b := by cases b <;> simp [sites]
  obtain ⟨w, h⟩ := h
  exact ⟨_, .fail b l w h⟩

/-- C125 fails: assertions about HTTP handlers never show the message. -/
theorem http_drops {M : Type} (b : Base) (l r : List M) (h1 : IsHttp b) (h : Reports b l r) : r = [] := by
  cases h with
  | fail _ _ w h =>
    have : w = false := by rcases h1 with rfl | rfl | rfl | rfl | rfl <;> simpa [sites] using h
    rw [this]; rfl
  | via _ c _ _ w h =>
    rcases h1 with rfl | rfl | rfl | rfl | rfl <;> simp [sites] at h

/-- C125 fails: `InEpsilonSlice` drops it when two elements differ. -/
theorem epsilon_drops {M : Type} (l : List M) : Reports .inEpsilonSlice l [] :=
  .via _ .inEpsilon _ _ false (by simp [sites]) (.fail _ _ true (by simp [sites]))

/-! ### The text -/

/-- C125, part: what is shown is the formatted message, if there are arguments.  Missing: without arguments it is not formatted, see
`single_not_formatted`; and the assertions of `message_kept_partial`. -/
theorem shown_partial {α M : Type} (str : M → Option Bytes) (sprintf : Bytes → List M → Bytes) (b : Base) (xs : List α) (m : M) (args : List M)
    (s : Bytes) (hx : xs.length = (params b).length) (hs : str m = some s) (ha : args ≠ []) (h1 : ¬ IsHttp b) (h2 : b ≠ .inEpsilonSlice)
    (f : Fn) (g : Msg M) (hp : Passed b m args f g) :
    ∃ l, call 3 f xs g = some (b, xs, l) ∧ ∀ r, Reports b l r → messageText str sprintf r = some (sprintf s args) := by
  refine ⟨_, reaches b xs m args hx f g hp, fun r hr => ?_⟩
  rw [message_kept_partial b _ r h1 h2 hr]
  match args, ha with
  | a :: as, _ => simp only [messageText, hs, Option.map_some]

theorem reports_nil {M : Type} {b : Base} {l r : List M} (h : Reports b l r) : l = [] → r = [] := by
  induction h with
  | fail b l w h => intro hl; cases w <;> simp [hl]
  | via b c l r w h _ ih => intro hl; exact ih (by cases w <;> simp [hl])

/-- C125: without a message none is shown, and nothing panics. -/
theorem nothing_shown {α M : Type} (str : M → Option Bytes) (sprintf : Bytes → List M → Bytes) (b : Base) (xs : List α)
    (hx : xs.length = (params b).length) :
    ∃ l, call (M := M) 3 (.method b) xs (.many []) = some (b, xs, l) ∧ ∀ r, Reports b l r → messageText str sprintf r = some [] := by
  refine ⟨_, reaches_plain b xs hx, fun r hr => ?_⟩
  rw [reports_nil hr rfl]
  rfl

/-- C125 fails: a message without arguments is shown as it is, by the functions ending in f too. -/
theorem single_not_formatted {α M : Type} (str : M → Option Bytes) (sprintf : Bytes → List M → Bytes) (xs : List α) (m : M)
    (hx : xs.length = 2) (hs : str m = some (asc "100%%")) (hf : sprintf (asc "100%%") [] = asc "100%") :
    ∃ l, call 3 (.format .equal) xs (.text m []) = some (.equal, xs, l) ∧
      ∀ r, Reports .equal l r → messageText str sprintf r = some (asc "100%%") ∧ messageText str sprintf r ≠ some (sprintf (asc "100%%") []) := by
  refine ⟨_, reaches .equal xs m [] hx (.format .equal) _ .format, fun r hr => ?_⟩
  rw [message_kept_partial .equal _ r (by simp [IsHttp]) (by simp) hr]
  simp only [messageText, hs, hf]
  exact ⟨trivial, by decide⟩

/-- C125 fails: a first argument that is not a string panics. -/
theorem message_panics {M : Type} (str : M → Option Bytes) (sprintf : Bytes → List M → Bytes) (b : Base) (m : M) (args : List M)
    (hs : str m = none) (h1 : ¬ IsHttp b) (h2 : b ≠ .inEpsilonSlice) (r : List M) (hr : Reports b (m :: args) r) :
    messageText str sprintf r = none := by
  rw [message_kept_partial b _ r h1 h2 hr]
  match args with
  | [] => exact hs
  | a :: as => simp only [messageText, hs, Option.map_none]

/-! ### Concrete cases -/

example : call 3 (.methodf .inDelta) [1, 2, 3] (.text "after %d steps" ["7"]) = some (.inDelta, [1, 2, 3], ["after %d steps", "7"]) := rfl

example : Reports .jsonEq ["m"] ["m"] := .via _ .equal _ _ true (by simp [sites]) (.fail _ _ true (by simp [sites]))

example : ¬ IsHttp .jsonEq ∧ Base.jsonEq ≠ .inEpsilonSlice := by simp [IsHttp]

example : call (M := String) 3 (.method .inDelta) [1, 2, 3] (.many []) = some (.inDelta, [1, 2, 3], []) := rfl

end Verif.Wrappers
