import Verif.Basic

/-!
# C134: the home page of the viewer

Model of witch/witch.go 18-28 and 38-138: building the page from its files and serving it.
-/

namespace Verif.HomePage

/-! ### Model -/

/-- `bytes.Replace` with a text that is not empty and no limit, witch/witch.go 71 and 104.  The number bounds the steps;
the length and one is enough. -/
def replace (old new : Bytes) : Nat → Bytes → Bytes
  | 0, s => s
  | _ + 1, [] => []
  | n + 1, c :: r => if old.isPrefixOf (c :: r) then new ++ replace old new n ((c :: r).drop old.length) else c :: replace old new n r

/-- The placeholder, witch/witch.go 71 and 104. -/
def placeholder : Bytes := asc "{{ COMPONENTS }}"

/-- `files`, witch/witch.go 18-24. -/
def files : List Bytes :=
  [asc "ide.html", asc "log-viewer.html", asc "filters.html", asc "data-sources.html", asc "columns.html", asc "state-viewer.html",
   asc "snapshots.html", asc "viz.html", asc "viz-item.html", asc "viz-value.html", asc "viz-struct.html", asc "viz-array.html",
   asc "viz-plain.html", asc "viz-ptr.html"]

/-- A place with files: the content, or the text of the error of opening or reading it, witch/witch.go 47-68 and
85-96.  Simplified: that the files of the program cannot be had at all, witch/witch.go 42-46, is an error for each of them. -/
abbrev Place := Bytes → Except Bytes Bytes

/-- The loop over the files, witch/witch.go 57-70 and 90-98. -/
def components (place : Place) : List Bytes → Bytes → Except Bytes Bytes
  | [], acc => .ok acc
  | f :: r, acc =>
    match place f with
    | .ok html => components place r (acc ++ html)
    | .error e => .error e

/-- The page from its files, with something behind the components, witch/witch.go 47-71 and 85-104. -/
def build (place : Place) (extra : Bytes) : Except Bytes Bytes :=
  match place (asc "index.html") with
  | .error e => .error e
  | .ok index =>
    match components place files [] with
    | .error e => .error e
    | .ok cs => .ok (replace placeholder (cs ++ extra) (index.length + 1) index)

/-- The script added in debug mode, witch/witch.go 99-103. -/
def debugScript : Bytes := asc "\n\t<script>\n\t\twindow.isDebug = true;\n\t</script>\n\t"

/-- `viewerHtml` and `isDebug`, witch/witch.go 28 and 75; no page is nil.  Simplified: an empty page counts as none. -/
structure St where
  viewerHtml : Bytes
  isDebug : Bool

/-- At first, witch/witch.go 28 and 75. -/
def start : St := ⟨[], true⟩

/-- `initViewerHtml`, witch/witch.go 38-73, with the files put into the program; the second result tells whether it succeeded,
which decides whether `Start` goes on, witch/witch.go 108-112. -/
def initViewerHtml (statik : Place) (s : St) : St × Bool :=
  if s.viewerHtml ≠ [] then (s, true)
  else
    match build statik [] with
    | .ok html => ({ s with viewerHtml := html }, true)
    | .error _ => (s, false)

/-- `homepage`, witch/witch.go 126-138: what is sent; `disk` has the files beside the source of the program, where it was built. -/
def homepage (disk : Place) (s : St) : Bytes :=
  if !s.isDebug then s.viewerHtml
  else
    match build disk debugScript with
    | .error e => e
    | .ok html => html

/-! ### Specification -/

/-- The contents of some files, one after the other. -/
inductive Contents (place : Place) : List Bytes → Bytes → Prop
  | nil : Contents place [] []
  | cons (f : Bytes) (r : List Bytes) (x y : Bytes) (h : place f = .ok x) (hr : Contents place r y) : Contents place (f :: r) (x ++ y)

/-- A file the page is made of. -/
def Needed (f : Bytes) : Prop := f = asc "index.html" ∨ f ∈ files

/-- A text has no part that it both starts and ends with. -/
def NoBorder (old : Bytes) : Prop := ∀ x y, x ≠ [] → y ≠ [] → old = x ++ y → ¬ y <+: old

/-! ### Proofs -/

theorem not_prefix_before (old a b : Bytes) (hb : NoBorder old) (ha : ¬ old <:+: a) (hne : a ≠ []) : ¬ old <+: a ++ (old ++ b) := by
  rintro ⟨t, ht⟩
  rcases List.append_eq_append_iff.mp ht with ⟨u, h1, h2⟩ | ⟨u, h1, h2⟩
  · exact ha ⟨[], u, by rw [List.nil_append]; exact h1.symm⟩
  · cases u with
    | nil => exact ha ⟨[], [], by rw [List.nil_append, List.append_nil]; rw [h1, List.append_nil]⟩
    | cons c u =>
      refine hb a (c :: u) hne (by simp) h1 ?_
      refine List.prefix_of_prefix_length_le (l₃ := old ++ b) ⟨t, h2.symm⟩ ⟨b, rfl⟩ ?_
      rw [h1]; simp

theorem replace_none (old new s : Bytes) (n : Nat) (h : ¬ old <:+: s) : replace old new n s = s := by
  induction n generalizing s with
  | zero => rfl
  | succ n ih =>
    cases s with
    | nil => rfl
    | cons c r =>
      have hp : ¬ old.isPrefixOf (c :: r) = true := fun hp => h (List.isPrefixOf_iff_prefix.mp hp).isInfix
      rw [replace, if_neg hp, ih r (fun hr => h (hr.trans (List.suffix_cons c r).isInfix))]

theorem replace_one (old new a b : Bytes) (n : Nat) (hold : old ≠ []) (hb : NoBorder old) (ha : ¬ old <:+: a) (hbb : ¬ old <:+: b)
    (hn : a.length < n) : replace old new n (a ++ (old ++ b)) = a ++ (new ++ b) := by
  induction a generalizing n with
  | nil =>
    cases n with
    | zero => simp at hn
    | succ n =>
      obtain ⟨c, o, ho⟩ := List.exists_cons_of_ne_nil hold
      rw [List.nil_append, List.nil_append]
      have hp : old.isPrefixOf (old ++ b) = true := List.isPrefixOf_iff_prefix.mpr ⟨b, rfl⟩
      have hd : (old ++ b).drop old.length = b := by simp
      have hc : old ++ b = c :: (o ++ b) := by rw [ho]; rfl
      rw [hc] at hp hd ⊢
      rw [replace, if_pos hp, hd, replace_none old new b n hbb]
  | cons c a ih =>
    cases n with
    | zero => simp at hn
    | succ n =>
      have hp : ¬ old.isPrefixOf (c :: (a ++ (old ++ b))) = true := by
        intro hp
        exact not_prefix_before old (c :: a) b hb ha (by simp) (List.isPrefixOf_iff_prefix.mp hp)
      rw [List.cons_append, replace, if_neg hp, ih n (fun hx => ha (hx.trans (List.suffix_cons c a).isInfix)) (by simpa using hn)]
      rfl

/-- Whether a text has no border can be decided from its lengths. -/
theorem noBorder_of (old : Bytes) (h : ∀ k, k < old.length → k ≠ 0 → ¬ (old.drop k) <+: old) : NoBorder old := by
  intro x y hx hy he hp
  have hlen : x.length < old.length := by
    rw [he, List.length_append]
    have := List.length_pos_iff.mpr hy
    omega
  refine h x.length hlen (fun h0 => hx (List.length_eq_zero_iff.mp h0)) ?_
  have : old.drop x.length = y := by
    have h2 : (x ++ y).drop x.length = y := by simp
    rw [← he] at h2
    exact h2
  rw [this]; exact hp

theorem placeholder_noBorder : NoBorder placeholder := noBorder_of _ (by decide)

theorem components_spec (place : Place) (l : List Bytes) (acc cs : Bytes) : components place l acc = .ok (acc ++ cs) ↔ Contents place l cs := by
  induction l generalizing acc cs with
  | nil =>
    rw [components]
    constructor
    · intro h
      have h' : acc = acc ++ cs := Except.ok.inj h
      rw [List.self_eq_append_right.mp h']
      exact .nil
    · intro h; cases h; simp
  | cons f r ih =>
    rw [components]
    constructor
    · intro h
      cases hf : place f with
      | error e => rw [hf] at h; cases h
      | ok x =>
        rw [hf] at h
        have h : components place r (acc ++ x) = .ok (acc ++ cs) := h
        have hpre : ∀ (l : List Bytes) (a c : Bytes), components place l a = .ok c → ∃ d, c = a ++ d := by
          intro l
          induction l with
          | nil => intro a c h; exact ⟨[], by rw [← Except.ok.inj h, List.append_nil]⟩
          | cons g r ih =>
            intro a c h
            rw [components] at h
            cases hg : place g with
            | error e => rw [hg] at h; cases h
            | ok y =>
              rw [hg] at h
              obtain ⟨d, hd⟩ := ih _ _ h
              exact ⟨y ++ d, by rw [hd, List.append_assoc]⟩
        obtain ⟨d, hd⟩ := hpre r _ _ h
        have hcs : cs = x ++ d := by
          rw [List.append_assoc] at hd
          exact List.append_cancel_left hd
        rw [hd] at h
        rw [hcs]
        exact .cons f r x d hf ((ih (acc ++ x) d).mp h)
    · intro h
      cases h with
      | cons _ _ x y hx hr =>
        rw [hx]
        show components place r (acc ++ x) = _
        rw [← List.append_assoc]
        exact (ih (acc ++ x) y).mpr hr

theorem contents_exists (place : Place) (l : List Bytes) (h : ∀ f ∈ l, ∃ x, place f = .ok x) : ∃ cs, Contents place l cs := by
  induction l with
  | nil => exact ⟨[], .nil⟩
  | cons f r ih =>
    obtain ⟨x, hx⟩ := h f List.mem_cons_self
    obtain ⟨y, hy⟩ := ih (fun g hg => h g (List.mem_cons_of_mem _ hg))
    exact ⟨x ++ y, .cons f r x y hx hy⟩

theorem build_page (place : Place) (extra a b cs : Bytes) (hi : place (asc "index.html") = .ok (a ++ (placeholder ++ b)))
    (ha : ¬ placeholder <:+: a) (hb : ¬ placeholder <:+: b) (hc : Contents place files cs) :
    build place extra = .ok (a ++ ((cs ++ extra) ++ b)) := by
  unfold build
  rw [hi]
  have hcs : components place files [] = .ok cs := by
    have := (components_spec place files [] cs).mpr hc
    rwa [List.nil_append] at this
  simp only [hcs]
  rw [replace_one placeholder (cs ++ extra) a b _ (by decide) placeholder_noBorder ha hb (by simp; omega)]

theorem components_fails (place : Place) (l : List Bytes) (acc f : Bytes) (e : Bytes) (hf : f ∈ l) (he : place f = .error e) :
    ∃ e', components place l acc = .error e' := by
  induction l generalizing acc with
  | nil => cases hf
  | cons g r ih =>
    rw [components]
    cases hg : place g with
    | error e' => exact ⟨e', rfl⟩
    | ok x =>
      rcases List.mem_cons.mp hf with h | h
      · rw [h, hg] at he; cases he
      · exact ih _ h

theorem build_fails (place : Place) (extra f e : Bytes) (hf : Needed f) (he : place f = .error e) : ∃ e', build place extra = .error e' := by
  unfold build
  cases hi : place (asc "index.html") with
  | error e' => exact ⟨e', rfl⟩
  | ok index =>
    rcases hf with hf | hf
    · rw [hf, hi] at he; cases he
    · obtain ⟨e', h⟩ := components_fails place files [] f e hf he
      exact ⟨e', by simp only [h]⟩

/-- C134: at the start the page is made of index.html with the contents of all files, in their order, in the place of the placeholder;
it is made once. -/
theorem start_page (statik : Place) (a b cs : Bytes) (hi : statik (asc "index.html") = .ok (a ++ (placeholder ++ b)))
    (ha : ¬ placeholder <:+: a) (hb : ¬ placeholder <:+: b) (hc : Contents statik files cs) (hne : a ++ (cs ++ b) ≠ []) :
    initViewerHtml statik start = (⟨a ++ (cs ++ b), true⟩, true) ∧
    ∀ other, initViewerHtml other (initViewerHtml statik start).1 = ((initViewerHtml statik start).1, true) := by
  have h1 : initViewerHtml statik start = (⟨a ++ (cs ++ b), true⟩, true) := by
    unfold initViewerHtml
    rw [if_neg (by simp [start]), build_page statik [] a b cs hi ha hb hc, List.append_nil]
    rfl
  refine ⟨h1, fun other => ?_⟩
  rw [h1]
  unfold initViewerHtml
  rw [if_pos hne]

/-- C134: without one of its files there is no page, and the viewer does not start. -/
theorem missing_file (statik : Place) (f e : Bytes) (hf : Needed f) (he : statik f = .error e) : initViewerHtml statik start = (start, false) := by
  obtain ⟨e', h⟩ := build_fails statik [] f e hf he
  unfold initViewerHtml
  rw [if_neg (by simp [start]), h]

/-- C134, part: if the files are where the program was built, the home page is made of them, with the script for debugging.  Missing: the
page made at the start is never sent (`start_page_unused`), and without the source there is no page (`error_sent`). -/
theorem homepage_partial (disk : Place) (html a b cs : Bytes) (hi : disk (asc "index.html") = .ok (a ++ (placeholder ++ b)))
    (ha : ¬ placeholder <:+: a) (hb : ¬ placeholder <:+: b) (hc : Contents disk files cs) :
    homepage disk ⟨html, true⟩ = a ++ ((cs ++ asc "\n\t<script>\n\t\twindow.isDebug = true;\n\t</script>\n\t") ++ b) := by
  unfold homepage
  rw [if_neg (by simp), build_page disk debugScript a b cs hi ha hb hc]
  rfl

/-! ### Disagreements and a concrete case -/

/-- C134 fails: whatever page was made at the start, it is not sent. -/
theorem start_page_unused (statik disk : Place) : homepage disk (initViewerHtml statik start).1 = homepage disk start := by
  unfold initViewerHtml
  rw [if_neg (by simp [start])]
  cases build statik [] with
  | error e => rfl
  | ok html => rfl

/-- C134 fails: where the source of the program is not on the disk, an error is sent as the page, although all files are in the program. -/
theorem error_sent (statik disk : Place) (e : Bytes) (he : disk (asc "index.html") = .error e) :
    homepage disk (initViewerHtml statik start).1 = e := by
  rw [start_page_unused]
  unfold homepage build
  rw [he]
  rfl

/-- A component with the placeholder in it: it is not replaced again. -/
theorem not_replaced_again : replace placeholder (asc "a{{ COMPONENTS }}") 99 (asc "<{{ COMPONENTS }}>") = asc "<a{{ COMPONENTS }}>" := by decide

/-- The directory witch/webroot in alphabetical order. -/
def webroot : List Bytes :=
  [asc "columns.html", asc "data-sources.html", asc "filters.html", asc "ide.html", asc "index.html", asc "log-viewer.html",
   asc "snapshots.html", asc "state-viewer.html", asc "viz-array.html", asc "viz-item.html", asc "viz-plain.html", asc "viz-ptr.html",
   asc "viz-struct.html", asc "viz-value.html", asc "viz.html"]

/-- C134: the files the page is made of are those in the directory, each one once, and no others. -/
theorem files_webroot : (asc "index.html" :: files).Perm webroot ∧ webroot.Nodup ∧ ∀ f, Needed f ↔ f ∈ webroot := by
  have hp : (asc "index.html" :: files).Perm webroot := List.isPerm_iff.mp (by decide +kernel)
  refine ⟨hp, by decide +kernel, fun f => ?_⟩
  rw [← hp.mem_iff, List.mem_cons]
  rfl

/-- Files of one letter each. -/
def samplePlace : Place := fun f => if f = asc "index.html" then .ok (asc "<{{ COMPONENTS }}>") else .ok (f.take 1)

example : (build samplePlace []).toOption = some (asc "<ilfdcssvvvvvvv>") ∧ ¬ placeholder <:+: asc "<" ∧ ¬ placeholder <:+: asc ">" ∧
    ∃ cs, Contents samplePlace files cs :=
  ⟨by decide +kernel, by decide, by decide, contents_exists samplePlace files (by
    intro f hf
    have : f ≠ asc "index.html" := by rintro rfl; exact absurd hf (by decide)
    exact ⟨f.take 1, by unfold samplePlace; rw [if_neg this]⟩)⟩

end Verif.HomePage
