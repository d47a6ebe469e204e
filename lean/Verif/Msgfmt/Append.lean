import Verif.Basic

/-!
# C173: formatters appended to formatters

Model of `Formatters` (msgfmt/formatter.go:15-30), an exported type: a slice, to which `Append` appends by the built-in `append`, so that values made from one
another may share an array.  A formatter is a function on the space it appends to (the arguments `kv` are the same for all).  The capacity that `append` gives to a new
array is left to the runtime (`grow`).
-/

namespace Verif.Msgfmt.Append

/-! ### Model -/

variable {B : Type}

/-- `Formatters`, msgfmt/formatter.go:15-17: address and length of the slice. -/
structure Slice where
  addr : Nat
  len : Nat
  deriving DecidableEq

/-- The arrays (contents and capacities by address; those from `next` on are free), and the values of type `Formatters` that a program has made, in
order (msgfmt/formatter.go:15-17). -/
structure State (B : Type) where
  cells : Nat → Nat → (B → B)
  cap : Nat → Nat
  next : Nat
  vals : List Slice

/-- At the beginning there is `Formatters{}` only, which has no array (msgfmt/formatter.go:15-17). -/
def init : State B := ⟨fun _ _ => id, fun _ => 0, 1, [⟨0, 0⟩]⟩

/-- `Append` to a value, msgfmt/formatter.go:19-23: in place if the capacity suffices, otherwise to a copy. -/
def State.append (grow : Nat → Nat) (s : State B) (v : Slice) (f : B → B) : State B :=
  if v.len < s.cap v.addr then
    { s with
      cells := fun a j => if a = v.addr ∧ j = v.len then f else s.cells a j
      vals := s.vals ++ [⟨v.addr, v.len + 1⟩] }
  else
    { cells := fun a j => if a = s.next then (if j < v.len then s.cells v.addr j else if j = v.len then f else id) else s.cells a j
      cap := fun a => if a = s.next then grow (v.len + 1) else s.cap a
      next := s.next + 1
      vals := s.vals ++ [⟨s.next, v.len + 1⟩] }

/-- A program: each step appends a formatter to the value with a number, which makes a new one (msgfmt/formatter.go:19-23); numbers of no value do
nothing. -/
def run (grow : Nat → Nat) : State B → List (Nat × (B → B)) → State B
  | s, [] => s
  | s, (i, f) :: ops =>
    match s.vals[i]? with
    | none => run grow s ops
    | some v => run grow (s.append grow v f) ops

/-- The formatters of a value (msgfmt/formatter.go:26). -/
def State.view (s : State B) (v : Slice) : List (B → B) := (List.range v.len).map (s.cells v.addr)

/-- The loop of `Format`, msgfmt/formatter.go:25-30. -/
def formatLoop : List (B → B) → B → B
  | [], space => space
  | f :: fs, space => formatLoop fs (f space)

/-- `Format` of the value with a number, msgfmt/formatter.go:25-30. -/
def State.format (s : State B) (i : Nat) (space : B) : Option B := s.vals[i]?.map fun v => formatLoop (s.view v) space

/-! ### Specification -/

/-- Formatting with a value made by the program: each does what the one it was made from does, and then what was appended. -/
def meant : List (B → B) → List (Nat × (B → B)) → List (B → B)
  | fs, [] => fs
  | fs, (i, f) :: ops => meant (match fs[i]? with | none => fs | some g => fs ++ [fun space => f (g space)]) ops

/-! ### Proofs -/

theorem formatLoop_append (fs : List (B → B)) (f : B → B) (space : B) : formatLoop (fs ++ [f]) space = f (formatLoop fs space) := by
  induction fs generalizing space with
  | nil => rfl
  | cons g fs ih => rw [List.cons_append, formatLoop, formatLoop, ih]

theorem view_congr {s s' : State B} {v : Slice} (h : ∀ j < v.len, s'.cells v.addr j = s.cells v.addr j) : s'.view v = s.view v := by
  unfold State.view
  apply List.map_congr_left
  intro j hj
  exact h j (List.mem_range.mp hj)

theorem append_vals (grow : Nat → Nat) (s : State B) (v : Slice) (f : B → B) :
    ∃ w, (s.append grow v f).vals = s.vals ++ [w] ∧ w.len = v.len + 1 ∧
      (w.addr = v.addr ∧ v.len < s.cap v.addr ∧ (s.append grow v f).next = s.next ∨
        w.addr = s.next ∧ ¬ v.len < s.cap v.addr ∧ (s.append grow v f).next = s.next + 1) := by
  unfold State.append
  by_cases h : v.len < s.cap v.addr
  · rw [if_pos h]; exact ⟨_, rfl, rfl, .inl ⟨rfl, h, rfl⟩⟩
  · rw [if_neg h]; exact ⟨_, rfl, rfl, .inr ⟨rfl, h, rfl⟩⟩

/-- The new value is what it is meant to be when it is made. -/
theorem append_view (grow : Nat → Nat) (s : State B) (v w : Slice) (f : B → B) (hw : (s.append grow v f).vals = s.vals ++ [w]) :
    (s.append grow v f).view w = s.view v ++ [f] := by
  unfold State.append at hw ⊢
  by_cases h : v.len < s.cap v.addr
  · rw [if_pos h] at hw ⊢
    simp only [List.append_cancel_left_eq, List.cons.injEq, and_true] at hw
    subst hw
    simp only [State.view, List.range_succ, List.map_append, List.map_cons, List.map_nil]
    congr 1
    · apply List.map_congr_left
      intro j hj
      have := List.mem_range.mp hj
      rw [if_neg (by omega)]
    all_goals simp
  · rw [if_neg h] at hw ⊢
    simp only [List.append_cancel_left_eq, List.cons.injEq, and_true] at hw
    subst hw
    simp only [State.view, List.range_succ, List.map_append, List.map_cons, List.map_nil]
    congr 1
    · apply List.map_congr_left
      intro j hj
      have := List.mem_range.mp hj
      simp [this]
    · simp

/-- Where an `Append` writes: to a free array, or behind the value it is given. -/
theorem append_cells (grow : Nat → Nat) (s : State B) (v : Slice) (f : B → B) (a j : Nat) (ha : a ≠ s.next)
    (h : a = v.addr → v.len < s.cap v.addr → j ≠ v.len) : (s.append grow v f).cells a j = s.cells a j := by
  unfold State.append
  by_cases hc : v.len < s.cap v.addr
  · rw [if_pos hc]
    exact if_neg fun hx => h hx.1 hc hx.2
  · rw [if_neg hc]
    exact if_neg ha

/-- What holds as long as no value was appended to twice; `used` are the numbers of those that were appended to. -/
structure Inv (s : State B) (used : List Nat) : Prop where
  free : ∀ v ∈ s.vals, v.addr < s.next
  last : ∀ i v, s.vals[i]? = some v → i ∉ used → ∀ w ∈ s.vals, w.addr = v.addr → w.len ≤ v.len
  apart : ∀ i k v w, s.vals[i]? = some v → s.vals[k]? = some w → i ∉ used → k ∉ used → i ≠ k → v.addr ≠ w.addr

theorem inv_init : Inv (init : State B) [] := by
  refine ⟨?_, ?_, ?_⟩
  · intro v hv; simp only [init, List.mem_singleton] at hv; subst hv; exact Nat.one_pos
  · intro i v hv _ w hw _
    simp only [init, List.mem_singleton] at hw; subst hw; exact Nat.zero_le _
  · intro i k v w hi hk _ _ hne
    have h1 := (List.getElem?_eq_some_iff.mp hi).1
    have h2 := (List.getElem?_eq_some_iff.mp hk).1
    simp only [init, List.length_singleton] at h1 h2
    omega

theorem inv_append (grow : Nat → Nat) {s : State B} {used : List Nat} (hi : Inv s used) (i : Nat) (v : Slice) (hv : s.vals[i]? = some v)
    (hu : i ∉ used) (f : B → B) :
    Inv (s.append grow v f) (i :: used) ∧ ∀ w ∈ s.vals, (s.append grow v f).view w = s.view w := by
  obtain ⟨w, hvals, hlen, hcase⟩ := append_vals grow s v f
  have hvm : v ∈ s.vals := List.mem_of_getElem? hv
  have old : ∀ (k : Nat) (x : Slice), (s.vals ++ [w])[k]? = some x → s.vals[k]? = some x ∨ k = s.vals.length ∧ x = w := by
    intro k x hx
    by_cases hk : k < s.vals.length
    · rw [List.getElem?_append_left hk] at hx; exact .inl hx
    · rw [List.getElem?_append_right (by omega)] at hx
      obtain ⟨h1, h2⟩ := List.getElem?_eq_some_iff.mp hx
      simp only [List.length_singleton] at h1
      refine .inr ⟨by omega, ?_⟩
      have h0 : k - s.vals.length = 0 := by omega
      simp [h0] at h2
      exact h2.symm
  refine ⟨⟨?_, ?_, ?_⟩, ?_⟩
  · intro x hx
    rw [hvals, List.mem_append, List.mem_singleton] at hx
    have hvn := hi.free v hvm
    rcases hx with hx | rfl
    · have := hi.free x hx
      rcases hcase with ⟨_, _, h⟩ | ⟨_, _, h⟩ <;> omega
    · rcases hcase with ⟨h1, _, h⟩ | ⟨h1, _, h⟩ <;> omega
  · intro k x hx hk y hy hxy
    rw [hvals] at hx hy
    simp only [List.mem_cons, not_or] at hk
    rw [List.mem_append, List.mem_singleton] at hy
    rcases old k x hx with hx' | ⟨rfl, rfl⟩
    · have hxn := hi.free x (List.mem_of_getElem? hx')
      rcases hy with hy | rfl
      · exact hi.last k x hx' hk.2 y hy hxy
      · rcases hcase with ⟨h1, _, _⟩ | ⟨h1, _, _⟩
        · exact absurd (hxy.symm.trans h1) (hi.apart k i x v hx' hv hk.2 hu hk.1)
        · omega
    · rcases hy with hy | rfl
      · rcases hcase with ⟨h1, _, _⟩ | ⟨h1, _, _⟩
        · have := hi.last i v hv hu y hy (hxy.trans h1)
          omega
        · have := hi.free y hy
          omega
      · exact Nat.le_refl _
  · intro k l x y hx hy hk hl hne
    rw [hvals] at hx hy
    simp only [List.mem_cons, not_or] at hk hl
    have new : ∀ (k : Nat) (x : Slice), s.vals[k]? = some x → k ≠ i → k ∉ used → x.addr ≠ w.addr := by
      intro k x hx h1 h2
      rcases hcase with ⟨h, _, _⟩ | ⟨h, _, _⟩
      · rw [h]; exact hi.apart k i x v hx hv h2 hu h1
      · have := hi.free x (List.mem_of_getElem? hx); omega
    rcases old k x hx with hx' | ⟨hk', hxw⟩
    · rcases old l y hy with hy' | ⟨hl', hyw⟩
      · exact hi.apart k l x y hx' hy' hk.2 hl.2 hne
      · rw [hyw]; exact new k x hx' hk.1 hk.2
    · rcases old l y hy with hy' | ⟨hl', hyw⟩
      · rw [hxw]; exact (new l y hy' hl.1 hl.2).symm
      · exact absurd (hk'.trans hl'.symm) hne
  · intro x hx
    apply view_congr
    intro j hj
    apply append_cells
    · have := hi.free x hx; omega
    · intro ha _
      have := hi.last i v hv hu x hx ha
      omega

theorem run_meant (grow : Nat → Nat) (ops : List (Nat × (B → B))) : ∀ (s : State B) (used : List Nat) (fs : List (B → B)), Inv s used →
    (ops.map Prod.fst).Nodup → (∀ i ∈ ops.map Prod.fst, i ∉ used) → fs = s.vals.map (fun v => formatLoop (s.view v)) →
    (run grow s ops).vals.map (fun v => formatLoop ((run grow s ops).view v)) = meant fs ops := by
  induction ops with
  | nil => intro s used fs _ _ _ hf; rw [run, meant, hf]
  | cons op ops ih =>
    obtain ⟨i, f⟩ := op
    intro s used fs hi hn hu hf
    rw [List.map_cons, List.nodup_cons] at hn
    rw [run, meant]
    have hu' : ∀ j ∈ ops.map Prod.fst, j ∉ used := fun j hj => hu j (List.mem_cons_of_mem _ hj)
    cases hv : s.vals[i]? with
    | none =>
      have : fs[i]? = none := by rw [hf, List.getElem?_map, hv]; rfl
      rw [this]
      exact ih s used fs hi hn.2 hu' hf
    | some v =>
      have : fs[i]? = some (formatLoop (s.view v)) := by rw [hf, List.getElem?_map, hv]; rfl
      rw [this]
      obtain ⟨hi', hk⟩ := inv_append grow hi i v hv (hu i (List.mem_cons_self ..)) f
      obtain ⟨w, hvals, _, _⟩ := append_vals grow s v f
      refine ih _ (i :: used) _ hi' hn.2 ?_ ?_
      · intro j hj
        rw [List.mem_cons, not_or]
        exact ⟨fun h => hn.1 (h ▸ hj), hu' j hj⟩
      · rw [hvals, List.map_append, hf, List.map_cons, List.map_nil, append_view grow s v w f hvals]
        show s.vals.map (fun v => formatLoop (s.view v)) ++ [fun space => f (formatLoop (s.view v) space)] = _
        have e1 : s.vals.map (fun v => formatLoop (s.view v)) = s.vals.map (fun x => formatLoop ((s.append grow v f).view x)) := by
          apply List.map_congr_left
          intro x hx
          rw [hk x hx]
        have e2 : (fun space => f (formatLoop (s.view v) space)) = formatLoop (s.view v ++ [f]) := by
          funext space
          exact (formatLoop_append ..).symm
        rw [e1, e2]

/-- C173, partial: in a program that appends to no value twice, every value formats at the end as it was meant to, those made first too. -/
theorem formats_as_meant_partial (grow : Nat → Nat) (ops : List (Nat × (B → B))) (h : (ops.map Prod.fst).Nodup) (i : Nat) (space : B) :
    (run grow init ops).format i space = ((meant [id] ops)[i]?).map (· space) := by
  have hm := run_meant grow ops init [] [id] inv_init h (by simp) (by simp [init, State.view, formatLoop]; rfl)
  rw [← hm, State.format, List.getElem?_map, Option.map_map]
  rfl

/-- C173, partial: in any program a value formats as meant right after it was made, if the one it was made from did right before. -/
theorem formats_when_made_partial (grow : Nat → Nat) (s : State B) (i : Nat) (v : Slice) (hv : s.vals[i]? = some v) (f : B → B) (space : B) :
    (s.append grow v f).format s.vals.length space = (s.format i space).map f := by
  obtain ⟨w, hw, _, _⟩ := append_vals grow s v f
  rw [State.format, State.format, hw, hv, List.getElem?_append_right (Nat.le_refl _), Nat.sub_self]
  simp only [List.getElem?_cons_zero, Option.map_some]
  rw [append_view grow s v w f hw, formatLoop_append]

/-- C173 fails: if the capacity of a value suffices for one more, two formatters appended to it go to the same place, and the first of the two values made then formats
with the second formatter. -/
theorem appended_twice (grow : Nat → Nat) (s : State B) (i : Nat) (v : Slice) (hv : s.vals[i]? = some v) (hc : v.len < s.cap v.addr)
    (f g : B → B) (space : B) :
    (s.append grow v f).format s.vals.length space = (s.format i space).map f ∧
    ((s.append grow v f).append grow v g).format s.vals.length space = (s.format i space).map g := by
  refine ⟨formats_when_made_partial grow s i v hv f space, ?_⟩
  have h1 : s.append grow v f = { s with
      cells := fun a j => if a = v.addr ∧ j = v.len then f else s.cells a j
      vals := s.vals ++ [⟨v.addr, v.len + 1⟩] } := by
    unfold State.append; rw [if_pos hc]
  have hg : (s.append grow v f).append grow v g = { s with
      cells := fun a j => if a = v.addr ∧ j = v.len then g else if a = v.addr ∧ j = v.len then f else s.cells a j
      vals := (s.vals ++ [⟨v.addr, v.len + 1⟩]) ++ [⟨v.addr, v.len + 1⟩] } := by
    rw [h1]
    unfold State.append
    rw [if_pos hc]
  rw [hg, State.format, State.format, hv]
  simp only [List.append_assoc]
  rw [List.getElem?_append_right (Nat.le_refl _), Nat.sub_self]
  simp only [List.cons_append, List.getElem?_cons_zero, Option.map_some]
  congr 1
  rw [← formatLoop_append (s.view v) g space]
  congr 1
  simp only [State.view, List.range_succ, List.map_append, List.map_cons, List.map_nil]
  congr 1
  · apply List.map_congr_left
    intro j hj
    have := List.mem_range.mp hj
    rw [if_neg (by omega), if_neg (by omega)]
  all_goals simp

/-! The cases are at the end of AppendRoom.lean. -/

end Verif.Msgfmt.Append
