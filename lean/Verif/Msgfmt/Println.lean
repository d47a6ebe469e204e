import Verif.Msgfmt.FormatProps

/-!
# C67: Println and Fprintln
-/

namespace Verif.Msgfmt
open Verif.Parse Verif.Spec

/-- Where the text goes (msgfmt.go:26-36). -/
inductive Dest where
  | given
  | stdout
  deriving DecidableEq

/-- `fprintln`, msgfmt.go:38-47 with `fprintf` (61-68): where it writes, what, and the
formatter cache afterwards.  For two or more values the slice itself is the argument; it is
passed here as `whole`, a value of the type `[]interface{}` with its JSON text. -/
def fprintln (shw : List Arg → Bytes) (cache : Cache) (values : List Arg) (whole : Arg) : (Dest × Res Bytes) × Cache :=
  match values with
  | [] => ((.stdout, .ok [10]), cache)
  | [v] =>
    let r := sprintf shw cache (asc "{single_value}\n") [.str (asc "single_value"), v]
    ((.given, r.1), r.2)
  | _ =>
    let r := sprintf shw cache (asc "{multiple_values}\n") [.str (asc "multiple_values"), whole]
    ((.given, r.1), r.2)

/-- The two templates (msgfmt.go:38-47). -/
def lineTemplate (name : List Nat) : Template :=
  { head := [], parts := [({ lead := [], id := name, trail := [], func := none }, [10])] }

theorem line_wf (name : List Nat) (h : ∀ n ∈ name, idRune n) (hf : ∃ n rs, name = n :: rs ∧ isSpaceRune n = false) :
    (lineTemplate name).wf := by
  refine ⟨by simp [lineTemplate], ?_⟩
  intro q hq
  simp only [lineTemplate, List.mem_singleton] at hq
  subst hq
  exact ⟨⟨blank_nil, h, hf, blankAfter_nil, by simp⟩, by simp⟩

def singleName : List Nat := (asc "single_value").map (·.toNat)
def multipleName : List Nat := (asc "multiple_values").map (·.toNat)

/-- C67, partial: the first line printed in a process, with at least one value, goes to the
given writer and is the value followed by a newline. -/
theorem fprintln_first_partial (shw : List Arg → Bytes) (v : Arg) (more : List Arg) (whole : Arg) (text : Bytes)
    (h : showValue (if more = [] then v else whole) = some text) :
    (fprintln shw [] (v :: more) whole).1 = (.given, .ok (text ++ [10])) := by
  have single : ∀ w t, showValue w = some t →
      sprintfFresh shw (asc "{single_value}\n") [.str (asc "single_value"), w] = .ok (t ++ [10]) := by
    intro w t ht
    have := sprintf_template_partial shw [(asc "single_value", w)] (lineTemplate singleName)
      (line_wf _ (by unfold idRune singleName; decide) ⟨115, _, rfl, by decide⟩) (by decide) (t ++ [10])
      (by
        have e : Placeholder.output [(asc "single_value", w)] { lead := [], id := singleName, trail := [], func := none } =
            some t := by
          unfold Placeholder.output
          rw [lookup_pairs_cons, if_pos (by decide)]
          exact ht
        simp only [Template.output, lineTemplate, partsOutput, e, Option.map_some]
        rfl)
    exact this
  have multiple : ∀ w t, showValue w = some t →
      sprintfFresh shw (asc "{multiple_values}\n") [.str (asc "multiple_values"), w] = .ok (t ++ [10]) := by
    intro w t ht
    have := sprintf_template_partial shw [(asc "multiple_values", w)] (lineTemplate multipleName)
      (line_wf _ (by unfold idRune multipleName; decide) ⟨109, _, rfl, by decide⟩) (by decide) (t ++ [10])
      (by
        have e : Placeholder.output [(asc "multiple_values", w)] { lead := [], id := multipleName, trail := [], func := none } =
            some t := by
          unfold Placeholder.output
          rw [lookup_pairs_cons, if_pos (by decide)]
          exact ht
        simp only [Template.output, lineTemplate, partsOutput, e, Option.map_some]
        rfl)
    exact this
  cases more with
  | nil =>
    rw [if_pos rfl] at h
    have := single v text h
    simp only [fprintln]
    exact Prod.ext rfl this
  | cons w more =>
    rw [if_neg (by simp)] at h
    have := multiple whole text h
    simp only [fprintln]
    exact Prod.ext rfl this

example : (fprintln (fun _ => []) [] [.str (asc "hello")] .nil).1 = (.given, .ok (asc "hello\n")) := rfl
example : (fprintln (fun _ => []) [] [.str (asc "a"), .other 0 (asc "1")] (.other 9 (asc "[\"a\",1]"))).1 =
    (.given, .ok (asc "[\"a\",1]\n")) := rfl

/-- C67 fails: without values the newline goes to standard output, not to the writer (so
`Println()` does print it, whatever was printed before). -/
theorem fprintln_nothing_to_stdout (shw : List Arg → Bytes) (cache : Cache) (whole : Arg) :
    (fprintln shw cache [] whole).1 = (.stdout, .ok [10]) := rfl

/-- C67 fails: `Println("x")` and then `Println(100)` panics. -/
theorem fprintln_type_change_panics (shw : List Arg → Bytes) :
    let first := fprintln shw [] [.str (asc "x")] .nil
    first.1.2 = .ok (asc "x\n") ∧ (fprintln shw first.2 [.other 0 (asc "100")] .nil).1.2 = .error .panic ∧
    (fprintln shw [] [.other 0 (asc "100")] .nil).1.2 = .ok (asc "100\n") := ⟨rfl, rfl, rfl⟩

end Verif.Msgfmt
