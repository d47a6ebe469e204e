import Verif.Msgfmt.Append

/-!
# C173: appending twice where there is no room

Appending again to the same `Formatters` does harm only if there is room in its array (msgfmt/formatter.go:19-23).
-/

namespace Verif.Msgfmt.Append

variable {B : Type}

theorem inv_full (grow : Nat → Nat) {s : State B} {used : List Nat} (hi : Inv s used) (v : Slice)
    (hc : ¬ v.len < s.cap v.addr) (f : B → B) :
    Inv (s.append grow v f) used ∧ ∀ w ∈ s.vals, (s.append grow v f).view w = s.view w := by
  obtain ⟨w, hvals, hlen, hcase⟩ := append_vals grow s v f
  have hnew : w.addr = s.next ∧ (s.append grow v f).next = s.next + 1 := by
    rcases hcase with ⟨_, h, _⟩ | ⟨h1, _, h2⟩
    · exact absurd h hc
    · exact ⟨h1, h2⟩
  have old : ∀ (k : Nat) (x : Slice), (s.vals ++ [w])[k]? = some x → s.vals[k]? = some x ∨ k = s.vals.length ∧ x = w := by
    intro k x hx
    by_cases hk : k < s.vals.length
    · rw [List.getElem?_append_left hk] at hx; exact .inl hx
    · rw [List.getElem?_append_right (by omega)] at hx
      obtain ⟨h1, h2⟩ := List.getElem?_eq_some_iff.mp hx
      simp only [List.length_singleton] at h1
      refine .inr ⟨by omega, ?_⟩
      have h0 : k - s.vals.length = 0 := by omega
      simp [h0] at h2
      exact h2.symm
  refine ⟨⟨?_, ?_, ?_⟩, ?_⟩
  · intro x hx
    rw [hvals, List.mem_append, List.mem_singleton] at hx
    rcases hx with hx | hx
    · have := hi.free x hx; omega
    · rw [hx]; omega
  · intro k x hx hk y hy hxy
    rw [hvals] at hx hy
    rw [List.mem_append, List.mem_singleton] at hy
    rcases old k x hx with hx' | ⟨_, hxw⟩
    · rcases hy with hy | hy
      · exact hi.last k x hx' hk y hy hxy
      · have := hi.free x (List.mem_of_getElem? hx')
        rw [hy] at hxy; omega
    · rcases hy with hy | hy
      · have := hi.free y hy
        rw [hxw] at hxy; omega
      · rw [hxw, hy]; exact Nat.le_refl _
  · intro k l x y hx hy hk hl hne
    rw [hvals] at hx hy
    rcases old k x hx with hx' | ⟨hk', hxw⟩
    · have := hi.free x (List.mem_of_getElem? hx')
      rcases old l y hy with hy' | ⟨_, hyw⟩
      · exact hi.apart k l x y hx' hy' hk hl hne
      · rw [hyw]; omega
    · rcases old l y hy with hy' | ⟨hl', _⟩
      · have := hi.free y (List.mem_of_getElem? hy')
        rw [hxw]; omega
      · exact absurd (hk'.trans hl'.symm) hne
  · intro x hx
    apply view_congr
    intro j hj
    apply append_cells
    · have := hi.free x hx; omega
    · intro _ h; exact absurd h hc

/-- Programs that append to each value once at most while it has room: `used` are the values appended to so far. -/
inductive Careful (grow : Nat → Nat) : State B → List Nat → List (Nat × (B → B)) → Prop where
  | nil (s used) : Careful grow s used []
  | skip (s used i f ops) (h : s.vals[i]? = none) (hr : Careful grow s used ops) : Careful grow s used ((i, f) :: ops)
  | first (s used i f ops v) (h : s.vals[i]? = some v) (hu : i ∉ used) (hr : Careful grow (s.append grow v f) (i :: used) ops) :
      Careful grow s used ((i, f) :: ops)
  | full (s used i f ops v) (h : s.vals[i]? = some v) (hc : s.cap v.addr ≤ v.len) (hr : Careful grow (s.append grow v f) used ops) :
      Careful grow s used ((i, f) :: ops)

theorem careful_meant (grow : Nat → Nat) {s : State B} {used : List Nat} {ops : List (Nat × (B → B))} (h : Careful grow s used ops) :
    ∀ fs : List (B → B), Inv s used → fs = s.vals.map (fun v => formatLoop (s.view v)) →
    (run grow s ops).vals.map (fun v => formatLoop ((run grow s ops).view v)) = meant fs ops := by
  have step : ∀ (s : State B) (v : Slice) (f : B → B), (∀ w ∈ s.vals, (s.append grow v f).view w = s.view w) →
      s.vals.map (fun v => formatLoop (s.view v)) ++ [fun space => f (formatLoop (s.view v) space)] =
        (s.append grow v f).vals.map (fun x => formatLoop ((s.append grow v f).view x)) := by
    intro s v f hk
    obtain ⟨w, hvals, _, _⟩ := append_vals grow s v f
    rw [hvals, List.map_append, List.map_cons, List.map_nil, append_view grow s v w f hvals]
    have e1 : s.vals.map (fun v => formatLoop (s.view v)) = s.vals.map (fun x => formatLoop ((s.append grow v f).view x)) := by
      apply List.map_congr_left
      intro x hx
      rw [hk x hx]
    have e2 : (fun space => f (formatLoop (s.view v) space)) = formatLoop (s.view v ++ [f]) := by
      funext space
      exact (formatLoop_append ..).symm
    rw [e1, e2]
  induction h with
  | nil s used => intro fs _ hf; rw [run, meant, hf]
  | skip s used i f ops hv _ ih =>
    intro fs hi hf
    have : fs[i]? = none := by rw [hf, List.getElem?_map, hv]; rfl
    rw [run, meant, hv, this]
    exact ih fs hi hf
  | first s used i f ops v hv hu _ ih =>
    intro fs hi hf
    have : fs[i]? = some (formatLoop (s.view v)) := by rw [hf, List.getElem?_map, hv]; rfl
    rw [run, meant, hv, this]
    obtain ⟨hi', hk⟩ := inv_append grow hi i v hv hu f
    exact ih _ hi' (by rw [hf]; exact step s v f hk)
  | full s used i f ops v hv hc _ ih =>
    intro fs hi hf
    have : fs[i]? = some (formatLoop (s.view v)) := by rw [hf, List.getElem?_map, hv]; rfl
    rw [run, meant, hv, this]
    obtain ⟨hi', hk⟩ := inv_full grow hi v (Nat.not_lt.mpr hc) f
    exact ih _ hi' (by rw [hf]; exact step s v f hk)

/-- C173, partial: programs may append to a value any number of times as long as its array has no room, and once while it has; all values then format as
meant.  `appended_twice` shows what happens to a value that has room and is appended to twice. -/
theorem careful_partial (grow : Nat → Nat) (ops : List (Nat × (B → B))) (h : Careful grow init [] ops) (i : Nat) (space : B) :
    (run grow init ops).format i space = ((meant [id] ops)[i]?).map (· space) := by
  have hm := careful_meant grow h [id] inv_init (by simp [init, State.view, formatLoop]; rfl)
  rw [← hm, State.format, List.getElem?_map, Option.map_map]
  rfl

/-- C173, partial: if the runtime left no room in new arrays, all programs would be right, whatever they append to. -/
theorem no_room_partial (grow : Nat → Nat) (hg : ∀ n, grow n = n) (ops : List (Nat × (B → B))) (i : Nat) (space : B) :
    (run grow init ops).format i space = ((meant [id] ops)[i]?).map (· space) := by
  apply careful_partial
  have key : ∀ (ops : List (Nat × (B → B))) (s : State B), (∀ v ∈ s.vals, s.cap v.addr ≤ v.len ∧ v.addr < s.next) → Careful grow s [] ops := by
    intro ops
    induction ops with
    | nil => intro s _; exact .nil s []
    | cons op ops ih =>
      obtain ⟨k, f⟩ := op
      intro s hs
      cases hv : s.vals[k]? with
      | none => exact .skip s [] k f ops hv (ih s hs)
      | some v =>
        have hc := (hs v (List.mem_of_getElem? hv)).1
        refine .full s [] k f ops v hv hc (ih _ fun x hx => ?_)
        unfold State.append at hx ⊢
        rw [if_neg (by omega)] at hx ⊢
        simp only [List.mem_append, List.mem_singleton] at hx ⊢
        rcases hx with hx | hx
        · have := hs x hx
          rw [if_neg (by omega)]
          omega
        · rw [hx]
          simp only [if_true, hg]
          omega
  exact key ops init (by intro v hv; simp only [init, List.mem_singleton] at hv; subst hv; exact ⟨Nat.le_refl _, Nat.one_pos⟩)

/-! ### Cases -/

/-- Capacities as the runtime gives them to small slices: the next power of two. -/
def sampleGrow (n : Nat) : Nat := if n ≤ 1 then 1 else if n ≤ 2 then 2 else if n ≤ 4 then 4 else 2 * n

/-- A formatter that appends a number. -/
def lit (n : Nat) (space : List Nat) : List Nat := space ++ [n]

example : (run sampleGrow init [(0, lit 1), (1, lit 2), (2, lit 3), (3, lit 4)]).format 4 [] = some [1, 2, 3, 4] := by decide
example : (([(0, lit 1), (1, lit 2), (2, lit 3), (3, lit 4)] : List (Nat × (List Nat → List Nat))).map Prod.fst).Nodup := by decide
/-- Three formatters, and then 4 and 5 each appended to those three: the value with 4 formats 5. -/
example : (run sampleGrow init [(0, lit 1), (1, lit 2), (2, lit 3), (3, lit 4), (3, lit 5)]).format 4 [] = some [1, 2, 3, 5] ∧
    ((meant [id] [(0, lit 1), (1, lit 2), (2, lit 3), (3, lit 4), (3, lit 5)])[4]?).map (· []) = some [1, 2, 3, 4] := by decide
example : ∃ v, (run sampleGrow (init : State (List Nat)) [(0, lit 1), (1, lit 2), (2, lit 3)]).vals[3]? = some v ∧
    v.len < (run sampleGrow (init : State (List Nat)) [(0, lit 1), (1, lit 2), (2, lit 3)]).cap v.addr := ⟨⟨3, 3⟩, by decide, by decide⟩

/-- Two formatters appended to `Formatters{}`, and two to one of one formatter, which has no room. -/
example : Careful sampleGrow (init : State (List Nat)) [] [(0, lit 1), (0, lit 2), (1, lit 3), (1, lit 4)] := by
  refine .full _ _ _ _ _ ⟨0, 0⟩ (by decide) (by decide) (.full _ _ _ _ _ ⟨0, 0⟩ (by decide) (by decide)
    (.full _ _ _ _ _ ⟨1, 1⟩ (by decide) (by decide) (.first _ _ _ _ _ ⟨1, 1⟩ (by decide) (by decide) (.nil _ _))))
example : (run sampleGrow init [(0, lit 1), (0, lit 2), (1, lit 3), (1, lit 4)]).format 3 [] = some [1, 3] := by decide

end Verif.Msgfmt.Append
