import Verif.Spew.FormatEnds

/-!
# C136: a formatter that is used more than once

`NewFormatter` (test/go-spew/spew/format.go 417-419, config.go 240-242) returns a value that can be printed as often as one likes, and one
argument of `Printf` may be printed several times (`%[1]v %[1]v`).  The formatter keeps its state from one time to the next.
-/

namespace Verif.Spew

/-! ### Model -/

/-- `Format` for the verb `v` on a formatter in some state, format.go 371-390: what it writes and the state it leaves.  `f.fs` is set anew
(372), `depth`, `pointers` and `ignoreNextType` are not. -/
def formatOn (E : Env) (F : Flags) (n : Nat) (s : St) : Option Val → Option (Bytes × St)
  | none => some ((if F.sharp then asc "(interface {})" else []) ++ asc "<nil>", s)
  | some v => (format E F n { s with out := [] } v).map fun r => (r.out, r)

/-- Printing with one formatter once for each of the flags, from `newFormatter` (format.go 394-398) on. -/
def formatMany (E : Env) (n : Nat) (v : Option Val) : St → List Flags → Option (List Bytes)
  | _, [] => some []
  | s, F :: Fs => (formatOn E F n s v).bind fun x => (formatMany E n v x.2 Fs).map fun ts => x.1 :: ts

/-! ### Specification -/

/-- Each time the text is that of a new formatter. -/
def AsNew (E : Env) (n : Nat) (v : Option Val) (Fs : List Flags) (ts : List Bytes) : Prop :=
  ts.length = Fs.length ∧ ∀ (i : Nat) (F : Flags) (t : Bytes), Fs[i]? = some F → ts[i]? = some t → formatV E F n v = some t

/-- No pointer is reached from a value. -/
def NoPtr (E : Env) (v : Val) : Prop := ∀ w, Reach E v w → ¬IsPtr w

/-! ### Proofs -/

/-- States that format alike: if the value may have pointers (`b`), the same are shown, and without `#` it does not matter whether the next
type is left out. -/
structure Alike (F : Flags) (b : Bool) (s t : St) : Prop where
  out : t.out = s.out
  depth : t.depth = s.depth
  ptrs : b = true → t.ptrs = s.ptrs
  noType : F.sharp = true → t.noType = s.noType

/-- Formatting alike gives alike states. -/
def Sim (E : Env) (F : Flags) (b : Bool) (f : St → Val → Option St) : Prop :=
  ∀ s t v r, Alike F b s t → (b = false → NoPtr E v) → f s v = some r → ∃ q, f t v = some q ∧ Alike F b r q

theorem Alike.write {F : Flags} {b : Bool} {s t : St} (h : Alike F b s t) (x : Bytes) : Alike F b (s.write x) (t.write x) :=
  ⟨by simp [St.write, h.out], h.depth, h.ptrs, h.noType⟩

theorem Alike.close {F : Flags} {b : Bool} {s t : St} (h : Alike F b s t) (c : Bytes) :
    Alike F b ({ s with depth := s.depth - 1 }.write c) ({ t with depth := t.depth - 1 }.write c) :=
  Alike.write (s := { s with depth := s.depth - 1 }) (t := { t with depth := t.depth - 1 })
    ⟨h.out, congrArg (· - 1) h.depth, h.ptrs, h.noType⟩ c

theorem Alike.gap {F : Flags} {b : Bool} {s t : St} (h : Alike F b s t) (first : Bool) : Alike F b (gap first s) (gap first t) := by
  cases first
  · exact h.write _
  · exact h

theorem Alike.behind {F : Flags} {b : Bool} {s t : St} (h : Alike F b s t) (v : Val) : Alike F b (showBehind s v) (showBehind t v) := by
  cases v <;> first | exact h | exact ⟨h.out, h.depth, h.ptrs, fun _ => rfl⟩

theorem Alike.bare {F : Flags} {b : Bool} {s t : St} (h : Alike F b s t) (x : Bool) :
    Alike F b { s with noType := x } { t with noType := x } := ⟨h.out, h.depth, h.ptrs, fun _ => rfl⟩

theorem NoPtr.part {E : Env} {v w : Val} (h : NoPtr E v) (hp : Part E w v) : NoPtr E w := fun u hu => h u (Reach.trans (.part .refl hp) hu)

theorem bare_sim {E : Env} {F : Flags} {b : Bool} {f} (hf : Sim E F b f) {s t : St} {v : Val} {r : St} (h : Alike F b s t)
    (hv : b = false → NoPtr E (unpack v)) (hr : formatBare f s v = some r) : ∃ q, formatBare f t v = some q ∧ Alike F b r q :=
  hf _ _ _ _ ((h.bare true).behind v) hv hr

theorem elems_sim {E : Env} {F : Flags} {b : Bool} {f} (hf : Sim E F b f) : ∀ (vs : List Val) (first : Bool) (s t r : St), Alike F b s t →
    (b = false → ∀ v ∈ vs, NoPtr E (unpack v)) → formatElems f first s vs = some r → ∃ q, formatElems f first t vs = some q ∧ Alike F b r q := by
  intro vs
  induction vs with
  | nil => intro first s t r h _ hr; cases hr; exact ⟨t, rfl, h⟩
  | cons v vs ih =>
    intro first s t r h hv hr
    obtain ⟨s1, h1, h2⟩ := Option.bind_eq_some_iff.mp hr
    obtain ⟨t1, k1, k2⟩ := bare_sim hf (h.gap first) (fun hb => hv hb v List.mem_cons_self) h1
    obtain ⟨q, k3, k4⟩ := ih false s1 t1 r k2 (fun hb w hw => hv hb w (List.mem_cons_of_mem _ hw)) h2
    exact ⟨q, Option.bind_eq_some_iff.mpr ⟨t1, k1, k3⟩, k4⟩

theorem entries_sim {E : Env} {F : Flags} {b : Bool} {f} (hf : Sim E F b f) : ∀ (vs : List (Val × Val)) (first : Bool) (s t r : St), Alike F b s t →
    (b = false → ∀ v ∈ vs, NoPtr E (unpack v.1) ∧ NoPtr E (unpack v.2)) → formatEntries f first s vs = some r →
    ∃ q, formatEntries f first t vs = some q ∧ Alike F b r q := by
  intro vs
  induction vs with
  | nil => intro first s t r h _ hr; cases hr; exact ⟨t, rfl, h⟩
  | cons kv vs ih =>
    intro first s t r h hv hr
    obtain ⟨k, v⟩ := kv
    obtain ⟨s1, h1, h2⟩ := Option.bind_eq_some_iff.mp hr
    obtain ⟨s2, h3, h4⟩ := Option.bind_eq_some_iff.mp h2
    obtain ⟨t1, k1, k2⟩ := bare_sim hf (h.gap first) (fun hb => (hv hb _ List.mem_cons_self).1) h1
    obtain ⟨t2, k3, k4⟩ := bare_sim hf (k2.write _) (fun hb => (hv hb _ List.mem_cons_self).2) h3
    obtain ⟨q, k5, k6⟩ := ih false s2 t2 r k4 (fun hb w hw => hv hb w (List.mem_cons_of_mem _ hw)) h4
    exact ⟨q, Option.bind_eq_some_iff.mpr ⟨t1, k1, Option.bind_eq_some_iff.mpr ⟨t2, k3, k5⟩⟩, k6⟩

theorem fields_sim {E : Env} {F : Flags} {b : Bool} {f} (hf : Sim E F b f) : ∀ (vs : List (Bytes × Val)) (first : Bool) (s t r : St), Alike F b s t →
    (b = false → ∀ v ∈ vs, NoPtr E (unpack v.2)) → formatFields F f first s vs = some r →
    ∃ q, formatFields F f first t vs = some q ∧ Alike F b r q := by
  intro vs
  induction vs with
  | nil => intro first s t r h _ hr; cases hr; exact ⟨t, rfl, h⟩
  | cons nv vs ih =>
    intro first s t r h hv hr
    obtain ⟨name, v⟩ := nv
    obtain ⟨s1, h1, h2⟩ := Option.bind_eq_some_iff.mp hr
    have hg : Alike F b (if F.plus = true ∨ F.sharp = true then (gap first s).write (name ++ asc ":") else gap first s)
        (if F.plus = true ∨ F.sharp = true then (gap first t).write (name ++ asc ":") else gap first t) := by
      by_cases hc : F.plus = true ∨ F.sharp = true
      · rw [if_pos hc, if_pos hc]; exact (h.gap first).write _
      · rw [if_neg hc, if_neg hc]; exact h.gap first
    obtain ⟨t1, k1, k2⟩ := hf _ _ _ _ (hg.behind v) (fun hb => hv hb _ List.mem_cons_self) h1
    obtain ⟨q, k5, k6⟩ := ih false s1 t1 r k2 (fun hb w hw => hv hb w (List.mem_cons_of_mem _ hw)) h2
    exact ⟨q, Option.bind_eq_some_iff.mpr ⟨t1, k1, k5⟩, k6⟩

theorem block_sim {E : Env} {F : Flags} {b : Bool} {o c : Bytes} {body : St → Option St}
    (hbody : ∀ s t r, Alike F b s t → body s = some r → ∃ q, body t = some q ∧ Alike F b r q) {s t r : St} (h : Alike F b s t)
    (hr : formatBlock E o c body s = some r) : ∃ q, formatBlock E o c body t = some q ∧ Alike F b r q := by
  have h1 : Alike F b { s.write o with depth := (s.write o).depth + 1 } { t.write o with depth := (t.write o).depth + 1 } :=
    ⟨(h.write o).out, by simp [St.write, h.depth], h.ptrs, h.noType⟩
  unfold formatBlock at hr ⊢
  simp only at hr ⊢
  rw [show (t.write o).depth = (s.write o).depth from h.depth]
  rw [show (t.write o).depth = (s.write o).depth from h.depth] at h1
  by_cases hd : E.maxDepth ≠ 0 ∧ (((s.write o).depth + 1 : Nat) : Int) > E.maxDepth
  · rw [if_pos hd] at hr ⊢
    cases hr
    refine ⟨_, rfl, ?_⟩
    have h2 := h1.write (asc "<max>")
    exact h2.close c
  · rw [if_neg hd] at hr ⊢
    obtain ⟨s1, h2, h3⟩ := Option.map_eq_some_iff.mp hr
    obtain ⟨t1, k2, k3⟩ := hbody _ _ _ h1 h2
    refine ⟨_, Option.map_eq_some_iff.mpr ⟨t1, k2, rfl⟩, ?_⟩
    rw [← h3]
    exact k3.close c

theorem kind_sim {E : Env} {F : Flags} {b : Bool} {f} (hf : Sim E F b f) {s t r : St} {v : Val} (h : Alike F b s t)
    (hv : b = false → ∀ w ∈ parts E v, NoPtr E w) (hr : formatKind E F f s v = some r) : ∃ q, formatKind E F f t v = some q ∧ Alike F b r q := by
  cases v with
  | slice ty a c =>
    rw [formatKind] at hr ⊢
    by_cases h0 : a = 0
    · rw [if_pos h0] at hr ⊢; cases hr; exact ⟨_, rfl, h.write _⟩
    · rw [if_neg h0] at hr ⊢
      refine block_sim (fun s t r h hr => elems_sim hf _ _ s t r h (fun hb w hw => hv hb _ ?_) hr) h hr
      rw [parts, if_neg h0]; exact List.mem_map_of_mem hw
  | array ty vs =>
    rw [formatKind] at hr ⊢
    exact block_sim (fun s t r h hr => elems_sim hf _ _ s t r h (fun hb w hw => hv hb _ (by rw [parts]; exact List.mem_map_of_mem hw)) hr) h hr
  | map ty a =>
    rw [formatKind] at hr ⊢
    by_cases h0 : a = 0
    · rw [if_pos h0] at hr ⊢; cases hr; exact ⟨_, rfl, h.write _⟩
    · rw [if_neg h0] at hr ⊢
      refine block_sim (fun s t r h hr => entries_sim hf _ _ s t r h (fun hb w hw => ⟨hv hb _ ?_, hv hb _ ?_⟩) hr) h hr <;>
        (rw [parts, if_neg h0]; exact List.mem_flatMap.mpr ⟨w, hw, by simp⟩)
  | struct ty fs =>
    rw [formatKind] at hr ⊢
    refine block_sim (fun s t r h hr => fields_sim hf _ _ s t r h (fun hb w hw => hv hb _ ?_) hr) h hr
    rw [parts]; exact List.mem_map.mpr ⟨w, hw, rfl⟩
  | blob ty isNil x c =>
    rw [formatKind] at hr ⊢
    cases isNil
    · rw [if_neg (by decide)] at hr ⊢
      exact block_sim (fun s t r h hr => by cases hr; exact ⟨_, rfl, h.write _⟩) h hr
    · cases hr; exact ⟨_, rfl, h.write _⟩
  | _ => rw [formatKind] at hr ⊢; cases hr; first | exact ⟨_, rfl, h.write _⟩ | exact ⟨_, rfl, h⟩

theorem rest_sim {E : Env} {F : Flags} {b : Bool} {f} (hf : Sim E F b f) {s t r : St} {v : Val} (h : Alike F b s t)
    (hv : b = false → NoPtr E v) (hr : formatRest E F f s v = some r) : ∃ q, formatRest E F f t v = some q ∧ Alike F b r q := by
  unfold formatRest at hr ⊢
  simp only at hr ⊢
  have h1 : Alike F b (if s.noType = false ∧ F.sharp = true then s.write (asc "(" ++ typeName v ++ asc ")") else s)
      (if t.noType = false ∧ F.sharp = true then t.write (asc "(" ++ typeName v ++ asc ")") else t) := by
    by_cases hs : F.sharp = true
    · rw [h.noType hs]
      by_cases hn : s.noType = false ∧ F.sharp = true
      · rw [if_pos hn, if_pos hn]; exact h.write _
      · rw [if_neg hn, if_neg hn]; exact h
    · rw [if_neg (fun x => hs x.2), if_neg (fun x => hs x.2)]; exact h
  have h2 := (h1.bare false).write (methText E v).1
  by_cases hm : (methText E v).2 = true
  · rw [if_pos hm] at hr ⊢
    cases hr
    exact ⟨_, rfl, h2⟩
  · rw [if_neg hm] at hr ⊢
    exact kind_sim hf h2 (fun hb w hw => (hv hb).part hw) hr

/-- `formatPtr` behind its loop (a name for a part of it, format.go 147-194). -/
def afterChase (F : Flags) (f : St → Val → Option St) (c : Chase) (s : St) : Option St :=
  let s := if F.sharp = true ∧ s.noType = false then
      s.write (asc "(" ++ rep (asc "*") c.indirects ++ typeName c.last ++ asc ")")
    else
      s.write (asc "<" ++ rep (asc "*") (if c.stop = .value then c.indirects else c.indirects + starCount (typeName c.last)) ++ asc ">")
  let s := if F.plus = true ∧ c.chain ≠ [] then s.write (asc "(" ++ chainText c.chain ++ asc ")") else s
  match c.stop with
  | .nil => some (s.write (asc "<nil>"))
  | .cycle => some (s.write (asc "<shown>"))
  | .value => f { s with noType := true } c.last

theorem formatPtr_eq (E : Env) (F : Flags) (f : St → Val → Option St) (fuel : Nat) (s : St) (ty : Bytes) (a : Nat) :
    formatPtr E F f fuel s ty a = if a = 0 ∧ (F.sharp = false ∨ s.noType = true) then some (s.write (asc "<nil>"))
      else (chase E s.depth fuel (prune s.depth s.ptrs) [] 0 (.ptr ty a)).bind fun c => afterChase F f c { s with ptrs := c.ptrs } := by
  unfold formatPtr
  by_cases h : a = 0 ∧ (F.sharp = false ∨ s.noType = true)
  · rw [if_pos h, if_pos h]
  · rw [if_neg h, if_neg h]
    cases chase E s.depth fuel (prune s.depth s.ptrs) [] 0 (.ptr ty a) <;> rfl

theorem after_sim {E : Env} {F : Flags} {f} (hf : Sim E F true f) {c : Chase} {s t r : St} (h : Alike F true s t)
    (hr : afterChase F f c s = some r) : ∃ q, afterChase F f c t = some q ∧ Alike F true r q := by
  unfold afterChase at hr ⊢
  simp only at hr ⊢
  have g2 : Alike F true
      (if F.sharp = true ∧ s.noType = false then s.write (asc "(" ++ rep (asc "*") c.indirects ++ typeName c.last ++ asc ")")
      else s.write (asc "<" ++ rep (asc "*") (if c.stop = .value then c.indirects else c.indirects + starCount (typeName c.last)) ++ asc ">"))
      (if F.sharp = true ∧ t.noType = false then t.write (asc "(" ++ rep (asc "*") c.indirects ++ typeName c.last ++ asc ")")
      else t.write (asc "<" ++ rep (asc "*") (if c.stop = .value then c.indirects else c.indirects + starCount (typeName c.last)) ++ asc ">")) := by
    generalize (if c.stop = .value then c.indirects else c.indirects + starCount (typeName c.last)) = k
    by_cases hs : F.sharp = true ∧ s.noType = false
    · rw [if_pos hs, if_pos ⟨hs.1, (h.noType hs.1).trans hs.2⟩]; exact h.write _
    · rw [if_neg hs, if_neg (fun x => hs ⟨x.1, (h.noType x.1).symm.trans x.2⟩)]; exact h.write _
  revert hr g2
  generalize (if F.sharp = true ∧ s.noType = false then s.write (asc "(" ++ rep (asc "*") c.indirects ++ typeName c.last ++ asc ")")
      else s.write (asc "<" ++ rep (asc "*") (if c.stop = .value then c.indirects else c.indirects + starCount (typeName c.last)) ++ asc ">")) = s2
  generalize (if F.sharp = true ∧ t.noType = false then t.write (asc "(" ++ rep (asc "*") c.indirects ++ typeName c.last ++ asc ")")
      else t.write (asc "<" ++ rep (asc "*") (if c.stop = .value then c.indirects else c.indirects + starCount (typeName c.last)) ++ asc ">")) = t2
  intro hr g2
  have g3 : Alike F true (if F.plus = true ∧ c.chain ≠ [] then s2.write (asc "(" ++ chainText c.chain ++ asc ")") else s2)
      (if F.plus = true ∧ c.chain ≠ [] then t2.write (asc "(" ++ chainText c.chain ++ asc ")") else t2) := by
    by_cases hp : F.plus = true ∧ c.chain ≠ []
    · rw [if_pos hp, if_pos hp]; exact g2.write _
    · rw [if_neg hp, if_neg hp]; exact g2
  cases hst : c.stop with
  | nil => rw [hst] at hr; cases hr; exact ⟨_, rfl, g3.write _⟩
  | cycle => rw [hst] at hr; cases hr; exact ⟨_, rfl, g3.write _⟩
  | value => rw [hst] at hr; exact hf _ _ _ _ (g3.bare true) (fun hb => absurd hb (by decide)) hr

theorem format_sim (E : Env) (F : Flags) (b : Bool) : ∀ n, Sim E F b (format E F n) := by
  intro n
  induction n with
  | zero => intro s t v r _ _ hr; cases hr
  | succ n ih =>
    intro s t v r h hv hr
    have other : ¬IsPtr v → v ≠ .invalid → ∃ q, format E F (n + 1) t v = some q ∧ Alike F b r q := by
      intro h1 h2
      rw [format_of_not_ptr h1 h2] at hr ⊢
      exact rest_sim ih h hv hr
    cases v with
    | invalid => cases hr; exact ⟨_, rfl, h.write _⟩
    | ptr ty a =>
      cases b with
      | false => exact absurd trivial (hv rfl _ .refl)
      | true =>
        have hr : formatPtr E F (format E F n) n s ty a = some r := hr
        show ∃ q, formatPtr E F (format E F n) n t ty a = some q ∧ _
        rw [formatPtr_eq] at hr ⊢
        by_cases h0 : a = 0 ∧ (F.sharp = false ∨ s.noType = true)
        · rw [if_pos h0] at hr
          have h0' : a = 0 ∧ (F.sharp = false ∨ t.noType = true) := by
            cases hs : F.sharp with
            | false => exact ⟨h0.1, .inl rfl⟩
            | true => exact ⟨h0.1, .inr ((h.noType hs).trans (h0.2.resolve_left (by simp [hs])))⟩
          rw [if_pos h0']
          cases hr
          exact ⟨_, rfl, h.write _⟩
        · rw [if_neg h0] at hr
          have h0' : ¬(a = 0 ∧ (F.sharp = false ∨ t.noType = true)) := by
            rintro ⟨x, y⟩
            cases hs : F.sharp with
            | false => exact h0 ⟨x, .inl hs⟩
            | true => exact h0 ⟨x, .inr ((h.noType hs).symm.trans (y.resolve_left (by simp [hs])))⟩
          rw [if_neg h0', h.ptrs rfl, h.depth]
          obtain ⟨c, hc, hr⟩ := Option.bind_eq_some_iff.mp hr
          obtain ⟨q, k1, k2⟩ := after_sim (E := E) ih (s := { s with ptrs := c.ptrs }) (t := { t with ptrs := c.ptrs })
            ⟨h.out, h.depth, fun _ => rfl, h.noType⟩ hr
          exact ⟨q, Option.bind_eq_some_iff.mpr ⟨c, hc, by rw [← h.depth] at *; exact k1⟩, k2⟩
    | _ => exact other (fun h => h) (by simp)

theorem format_depth {E : Env} {F : Flags} {n : Nat} {s r : St} {v : Val} (hs : F.sharp = false) (h : format E F n s v = some r) (K : List Nat)
    (hK : ∀ a, s.ptrs a ≠ none → a ∈ K) : r.depth = s.depth := by
  obtain ⟨_, _, _, hf⟩ := format_forms E F n s v r K false h (fun h => by rw [hs] at h; cases h) (fun h => by rw [hs] at h; cases h) hK
  exact hf.depth

/-- Finitely many pointers are remembered. -/
def Finite (s : St) : Prop := ∃ K : List Nat, ∀ a, s.ptrs a ≠ none → a ∈ K

theorem format_finite {E : Env} {F : Flags} {n : Nat} {s r : St} {v : Val} (hs : F.sharp = false) (h : format E F n s v = some r) (hf : Finite s) :
    Finite r := by
  obtain ⟨K, hK⟩ := hf
  obtain ⟨_, K', _, hf⟩ := format_forms E F n s v r K false h (fun h => by rw [hs] at h; cases h) (fun h => by rw [hs] at h; cases h) hK
  exact ⟨K', hf.ptrs⟩

/-- One more use of a formatter, for pointers and for values without pointers. -/
theorem again {E : Env} {F : Flags} {n : Nat} {s : St} {v : Val} {x : Bytes × St} (hs : F.sharp = false) (hv : IsPtr v ∨ NoPtr E v)
    (hd : s.depth = 0) (hx : formatOn E F n s (some v) = some x) : formatV E F n (some v) = some x.1 := by
  obtain ⟨r, hr, hx⟩ := Option.map_eq_some_iff.mp hx
  have no : F.sharp = true → False := fun h => by rw [hs] at h; cases h
  have goal : ∃ q, format E F n St.init v = some q ∧ q.out = r.out := by
    rcases hv with hv | hv
    · cases v with
      | ptr ty a =>
        cases n with
        | zero => cases hr
        | succ n =>
          have hr : formatPtr E F (format E F n) n { s with out := [] } ty a = some r := hr
          show ∃ q, formatPtr E F (format E F n) n St.init ty a = some q ∧ _
          rw [formatPtr_eq] at hr ⊢
          by_cases h0 : a = 0
          · rw [if_pos ⟨h0, .inl hs⟩] at hr ⊢
            cases hr
            exact ⟨_, rfl, rfl⟩
          · rw [if_neg (fun h => h0 h.1)] at hr ⊢
            have e : prune s.depth s.ptrs = prune St.init.depth St.init.ptrs := by
              rw [hd]
              funext b
              unfold prune
              cases s.ptrs b <;> simp [St.init]
            obtain ⟨c, hc, hr⟩ := Option.bind_eq_some_iff.mp hr
            have hc : chase E s.depth n (prune s.depth s.ptrs) [] 0 (.ptr ty a) = some c := hc
            rw [e, hd] at hc
            obtain ⟨q, k1, k2⟩ := after_sim (E := E) (format_sim E F true n) (s := { s with out := [], ptrs := c.ptrs })
              (t := { St.init with ptrs := c.ptrs }) ⟨rfl, hd.symm, fun _ => rfl, fun h => (no h).elim⟩ hr
            exact ⟨q, Option.bind_eq_some_iff.mpr ⟨c, hc, k1⟩, k2.out⟩
      | _ => exact hv.elim
    · obtain ⟨q, k1, k2⟩ := format_sim E F false n { s with out := [] } St.init v r
        ⟨rfl, hd.symm, fun h => (by cases h), fun h => (no h).elim⟩ (fun _ => hv) hr
      exact ⟨q, k1, k2.out⟩
  obtain ⟨q, h1, h2⟩ := goal
  show (format E F n St.init v).map St.out = _
  rw [h1, ← hx]
  exact congrArg some h2

theorem many_as_new {E : Env} {n : Nat} {v : Option Val} (hv : ∀ w, v = some w → IsPtr w ∨ NoPtr E w) : ∀ (Fs : List Flags) (s : St) (ts : List Bytes),
    (∀ F ∈ Fs, F.sharp = false) → s.depth = 0 → Finite s → formatMany E n v s Fs = some ts → AsNew E n v Fs ts := by
  intro Fs
  induction Fs with
  | nil => intro s ts _ _ _ h; cases h; exact ⟨rfl, fun i F t h => by simp at h⟩
  | cons F Fs ih =>
    intro s ts hF hd hfin h
    obtain ⟨x, h1, h2⟩ := Option.bind_eq_some_iff.mp h
    obtain ⟨us, h3, h4⟩ := Option.map_eq_some_iff.mp h2
    have hs := hF F List.mem_cons_self
    have hx : formatV E F n v = some x.1 ∧ x.2.depth = 0 ∧ Finite x.2 := by
      cases v with
      | none => cases h1; exact ⟨rfl, hd, hfin⟩
      | some w =>
        refine ⟨again hs (hv w rfl) hd h1, ?_⟩
        obtain ⟨r, hr, hx⟩ := Option.map_eq_some_iff.mp h1
        rw [← hx]
        obtain ⟨K, hK⟩ := hfin
        exact ⟨(format_depth hs hr K hK).trans hd, format_finite hs hr ⟨K, hK⟩⟩
    have hr := ih x.2 us (fun G hG => hF G (List.mem_cons_of_mem _ hG)) hx.2.1 hx.2.2 h3
    rw [← h4]
    refine ⟨by simp [hr.1], fun i G t hG ht => ?_⟩
    cases i with
    | zero =>
      simp only [List.getElem?_cons_zero, Option.some.injEq] at hG ht
      rw [← hG, ← ht]; exact hx.1
    | succ i =>
      rw [List.getElem?_cons_succ] at hG ht
      exact hr.2 i G t hG ht

/-- C136, part: with `%v` and `%+v`, a formatter for a pointer, for nil, or for a value without pointers prints what a new one would print, however
often it is used.  Missing: values with pointers inside that are no pointers themselves (`shown_at_once`), and `#` (`type_lost_again`). -/
theorem reuse_partial {E : Env} {n : Nat} {v : Option Val} (hv : ∀ w, v = some w → IsPtr w ∨ NoPtr E w) (Fs : List Flags) (ts : List Bytes)
    (hF : ∀ F ∈ Fs, F.sharp = false) (h : formatMany E n v St.init Fs = some ts) : AsNew E n v Fs ts :=
  many_as_new hv Fs St.init ts hF rfl ⟨[], fun _ h => absurd rfl h⟩ h

/-! ### Disagreements and a concrete case -/

/-- `struct{Q struct{R *int}; P *int}`, both pointers to one number. -/
def twice : Val := .struct (asc "main.T") [(asc "Q", .struct (asc "main.Q") [(asc "R", .ptr (asc "*int") 1)]), (asc "P", .ptr (asc "*int") 1)]

/-- The world of `twice`. -/
def twiceEnv : Env := Env.sample (fun _ => .num (asc "int") (asc "5")) (fun _ => []) (fun _ => [])

/-- C136 fails: the second time, the first pointer is taken for one shown further up. -/
theorem shown_at_once : formatMany twiceEnv 9 (some twice) St.init [⟨false, false⟩, ⟨false, false⟩] =
      some [asc "{{<*>5} <*>5}", asc "{{<*><shown>} <*>5}"] ∧
    ¬AsNew twiceEnv 9 (some twice) [⟨false, false⟩, ⟨false, false⟩] [asc "{{<*>5} <*>5}", asc "{{<*><shown>} <*>5}"] := by
  refine ⟨by decide +kernel, fun h => ?_⟩
  have := h.2 1 _ _ rfl rfl
  exact absurd this (by decide +kernel)

/-- C136 fails with `%#v`, for a slice of pointers: the second time its type is missing. -/
theorem type_lost_again : formatMany lossyEnv 9 (some (.slice (asc "[]*int") 1 1)) St.init [⟨false, true⟩, ⟨false, true⟩] =
    some [asc "([]*int)[<nil>]", asc "[<nil>]"] := by decide +kernel

/-- The ring of pointers, printed three times with one formatter. -/
example : formatMany ring 9 (some (.ptr (asc "*main.Node") 1)) St.init [⟨false, false⟩, ⟨true, false⟩, ⟨false, false⟩] =
    some [asc "<*>{<*>{<*><shown>}}", asc "<*>(0x1){Next:<*>(0x2){Next:<*>(0x1)<shown>}}", asc "<*>{<*>{<*><shown>}}"] := by decide +kernel

/-- `[2]int{5, 6}` has no pointers; printed twice. -/
example : NoPtr ring (.array (asc "[2]int") [.num (asc "int") (asc "5"), .num (asc "int") (asc "6")]) ∧
    formatMany ring 9 (some (.array (asc "[2]int") [.num (asc "int") (asc "5"), .num (asc "int") (asc "6")])) St.init [⟨false, false⟩, ⟨true, false⟩] =
      some [asc "[5 6]", asc "[5 6]"] := by
  refine ⟨fun w h => ?_, by decide +kernel⟩
  have : ∀ w, Reach ring (.array (asc "[2]int") [.num (asc "int") (asc "5"), .num (asc "int") (asc "6")]) w →
      w ∈ [Val.array (asc "[2]int") [.num (asc "int") (asc "5"), .num (asc "int") (asc "6")], .num (asc "int") (asc "5"), .num (asc "int") (asc "6")] := by
    intro w h
    induction h with
    | refl => simp
    | part _ h ih =>
      simp only [List.mem_cons, List.not_mem_nil, or_false] at ih
      rcases ih with rfl | rfl | rfl <;> simp [Part, parts, unpack] at h
      rcases h with rfl | rfl <;> simp
    | target _ h ih =>
      obtain ⟨ty, a, rfl, _⟩ := h
      simp at ih
  have := this w h
  simp only [List.mem_cons, List.not_mem_nil, or_false] at this
  rcases this with rfl | rfl | rfl <;> exact id

end Verif.Spew
