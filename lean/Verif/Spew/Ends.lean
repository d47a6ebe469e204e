import Verif.Spew.Dump
import Mathlib.Data.Finset.Card
import Mathlib.Data.Finset.SDiff

/-!
# go-spew: on which values `Sdump` ends

config.go 49-51 promises that circular data structures are properly detected.  They are when every circle
goes through a pointer and, after it, through a struct, array, slice or map.
-/

namespace Verif.Spew

/-! ## Specification: what a value consists of -/

/-- The values one level below `v`: elements, keys and values, fields (interfaces opened). -/
def parts (E : Env) : Val → List Val
  | .slice _ a _ => if a = 0 then [] else (E.elems a).map unpack
  | .array _ vs => vs.map unpack
  | .map _ a => if a = 0 then [] else (E.entries a).flatMap fun kv => [unpack kv.1, unpack kv.2]
  | .struct _ fs => fs.map fun fv => unpack fv.2
  | _ => []

/-- `w` is a part of `v`. -/
def Part (E : Env) (w v : Val) : Prop := w ∈ parts E v

/-- `v` is a pointer to `w`, or to an interface holding `w`. -/
def Target (E : Env) (w v : Val) : Prop := ∃ ty a, v = .ptr ty a ∧ a ≠ 0 ∧ w = unpack (E.at_ a)

/-- `w` is reached from `v` by going to parts and targets. -/
inductive Reach (E : Env) (v : Val) : Val → Prop where
  | refl : Reach E v v
  | part {u w} : Reach E v u → Part E w u → Reach E v w
  | target {u w} : Reach E v u → Target E w u → Reach E v w

theorem Reach.trans {E : Env} {v u w : Val} (h : Reach E v u) (k : Reach E u w) : Reach E v w := by
  induction k with
  | refl => exact h
  | part _ h2 ih => exact .part ih h2
  | target _ h2 ih => exact .target ih h2

/-- Whether a value is a pointer. -/
def IsPtr : Val → Prop
  | .ptr _ _ => True
  | _ => False

/-! ## More fuel does not change the result -/

/-- `g` gives the results of `f` and perhaps more. -/
def Ext (f g : St → Val → Option St) : Prop := ∀ s v r, f s v = some r → g s v = some r

theorem chase_mono {E : Env} {D : Nat} : ∀ {n p ch ind v c}, chase E D n p ch ind v = some c →
    ∀ k, chase E D (n + k) p ch ind v = some c := by
  intro n
  induction n with
  | zero =>
    intro p ch ind v c h k
    cases v with
    | ptr ty a => exact absurd h (by simp [chase])
    | _ => cases k <;> exact h
  | succ n ih =>
    intro p ch ind v c h k
    rw [Nat.add_right_comm]
    cases v with
    | ptr ty a =>
      simp only [chase] at h ⊢
      split at h
      · rename_i h0; rw [if_pos h0]; exact h
      · rename_i h0; rw [if_neg h0]
        split at h
        · rename_i h1; rw [if_pos h1]; exact h
        · rename_i h1; rw [if_neg h1]
          split at h
          · exact h
          · exact ih h k
    | _ => exact h

theorem dumpElems_ext {f g} (h : Ext f g) : ∀ vs s r, dumpElems f s vs = some r → dumpElems g s vs = some r := by
  intro vs
  induction vs with
  | nil => intro s r hr; exact hr
  | cons v vs ih =>
    intro s r hr
    cases vs with
    | nil =>
      simp only [dumpElems, Option.map_eq_some_iff] at hr ⊢
      obtain ⟨x, hx, rfl⟩ := hr
      exact ⟨x, h _ _ _ hx, rfl⟩
    | cons w vs =>
      simp only [dumpElems, Option.bind_eq_some_iff] at hr ⊢
      obtain ⟨x, hx, hy⟩ := hr
      exact ⟨x, h _ _ _ hx, ih _ _ hy⟩

theorem dumpEntry_ext {f g} (h : Ext f g) {kv s r} (hr : dumpEntry f s kv = some r) : dumpEntry g s kv = some r := by
  simp only [dumpEntry, Option.bind_eq_some_iff] at hr ⊢
  obtain ⟨x, hx, hy⟩ := hr
  exact ⟨x, h _ _ _ hx, h _ _ _ hy⟩

theorem dumpEntries_ext {f g} (h : Ext f g) : ∀ vs s r, dumpEntries f s vs = some r → dumpEntries g s vs = some r := by
  intro vs
  induction vs with
  | nil => intro s r hr; exact hr
  | cons v vs ih =>
    intro s r hr
    cases vs with
    | nil =>
      simp only [dumpEntries, Option.map_eq_some_iff] at hr ⊢
      obtain ⟨x, hx, rfl⟩ := hr
      exact ⟨x, dumpEntry_ext h hx, rfl⟩
    | cons w vs =>
      simp only [dumpEntries, Option.bind_eq_some_iff] at hr ⊢
      obtain ⟨x, hx, hy⟩ := hr
      exact ⟨x, dumpEntry_ext h hx, ih _ _ hy⟩

theorem dumpFields_ext {E f g} (h : Ext f g) : ∀ vs s r, dumpFields E f s vs = some r → dumpFields E g s vs = some r := by
  intro vs
  induction vs with
  | nil => intro s r hr; exact hr
  | cons v vs ih =>
    intro s r hr
    cases vs with
    | nil =>
      simp only [dumpFields, Option.map_eq_some_iff] at hr ⊢
      obtain ⟨x, hx, rfl⟩ := hr
      exact ⟨x, h _ _ _ hx, rfl⟩
    | cons w vs =>
      simp only [dumpFields, Option.bind_eq_some_iff] at hr ⊢
      obtain ⟨x, hx, hy⟩ := hr
      exact ⟨x, h _ _ _ hx, ih _ _ hy⟩

theorem block_ext {E : Env} {b c : St → Option St} (h : ∀ s r, b s = some r → c s = some r) {s r}
    (hr : block E b s = some r) : block E c s = some r := by
  simp only [block, Option.map_eq_some_iff] at hr ⊢
  obtain ⟨x, hx, rfl⟩ := hr
  refine ⟨x, ?_, rfl⟩
  split at hx
  · rename_i h1; rw [if_pos h1]; exact hx
  · rename_i h1; rw [if_neg h1]; exact h _ _ hx

theorem dumpKind_ext {E f g} (h : Ext f g) {v s r} (hr : dumpKind E f s v = some r) : dumpKind E g s v = some r := by
  cases v with
  | slice ty a cap =>
    simp only [dumpKind] at hr ⊢
    split
    · rename_i h0; rw [if_pos h0] at hr; exact hr
    · rename_i h0; rw [if_neg h0] at hr
      exact block_ext (dumpElems_ext h _) hr
  | array ty vs => exact block_ext (dumpElems_ext h _) hr
  | map ty a =>
    simp only [dumpKind] at hr ⊢
    split
    · rename_i h0; rw [if_pos h0] at hr; exact hr
    · rename_i h0; rw [if_neg h0] at hr
      exact block_ext (dumpEntries_ext h _) hr
  | struct ty fs => exact block_ext (dumpFields_ext h _) hr
  | _ => exact hr

theorem dumpRest_ext {E f g} (h : Ext f g) {v s r} (hr : dumpRest E f s v = some r) : dumpRest E g s v = some r := by
  simp only [dumpRest] at hr ⊢
  split at hr
  · rename_i h0; rw [if_pos h0]; exact hr
  · rename_i h0; rw [if_neg h0]; exact dumpKind_ext h hr

theorem dump_mono1 {E : Env} : ∀ n, Ext (dump E n) (dump E (n + 1)) := by
  intro n
  induction n with
  | zero => intro s v r h; cases h
  | succ n ih =>
    intro s v r h
    unfold dump at h ⊢
    split at h
    · exact h
    · simp only [dumpPtr] at h ⊢
      split at h
      · cases h
      · rename_i c hc
        rw [chase_mono hc 1]
        simp only at h ⊢
        split at h
        · exact h
        · exact h
        · simp only [Option.map_eq_some_iff] at h ⊢
          obtain ⟨x, hx, rfl⟩ := h
          exact ⟨x, ih _ _ _ hx, rfl⟩
    · exact dumpRest_ext ih h

theorem dump_mono {E : Env} (n k : Nat) : Ext (dump E n) (dump E (n + k)) := by
  induction k with
  | zero => exact fun _ _ _ h => h
  | succ k ih => exact fun s v r h => dump_mono1 (n + k) _ _ _ (ih _ _ _ h)

theorem dump_mono' {E : Env} {m n : Nat} (h : m ≤ n) : Ext (dump E m) (dump E n) := by
  obtain ⟨k, rfl⟩ := Nat.exists_eq_add_of_le h
  exact dump_mono m k

/-- What is dumped does not depend on the fuel. -/
theorem dump_det {E : Env} {m n : Nat} {s v r t} (h : dump E m s v = some r) (k : dump E n s v = some t) : r = t := by
  have h1 := dump_mono' (Nat.le_max_left m n) _ _ _ h
  have h2 := dump_mono' (Nat.le_max_right m n) _ _ _ k
  rw [h1] at h2; exact Option.some.inj h2

/-! ## Ending -/

/-- The depth stays and nothing noted above it is forgotten. -/
def Keeps (s r : St) : Prop := r.depth = s.depth ∧ ∀ a d, d < s.depth → s.ptrs a = some d → r.ptrs a = some d

theorem Keeps.trans {s r t : St} (h : Keeps s r) (k : Keeps r t) : Keeps s t :=
  ⟨k.1.trans h.1, fun a d hd hs => k.2 a d (by rw [h.1]; exact hd) (h.2 a d hd hs)⟩

theorem Keeps.of_eq {s r : St} (h1 : r.depth = s.depth) (h2 : r.ptrs = s.ptrs) : Keeps s r :=
  ⟨h1, fun a d _ h => by rw [h2]; exact h⟩

theorem indent_depth (E : Env) (s : St) : (indent E s).depth = s.depth := by
  unfold indent; split <;> rfl

theorem indent_ptrs (E : Env) (s : St) : (indent E s).ptrs = s.ptrs := by
  unfold indent; split <;> rfl

/-- The depth is `D` and all of `S` are noted as being shown above. -/
def Has (D : Nat) (S : Finset Nat) (s : St) : Prop := s.depth = D ∧ ∀ a ∈ S, ∃ d < D, s.ptrs a = some d

theorem Has.keeps {D S} {s r : St} (h : Has D S s) (k : Keeps s r) : Has D S r := by
  refine ⟨k.1.trans h.1, fun a ha => ?_⟩
  obtain ⟨d, hd, hs⟩ := h.2 a ha
  exact ⟨d, hd, k.2 a d (by rw [h.1]; exact hd) hs⟩

/-- `v` is dumped in finitely many steps at depth `D` with `S` shown above. -/
def EndsAt (E : Env) (D : Nat) (S : Finset Nat) (v : Val) : Prop :=
  ∀ s, Has D S s → ∃ n r, dump E n s v = some r ∧ Keeps s r

theorem elems_end {E : Env} {D S} : ∀ (vs : List Val), (∀ v ∈ vs, EndsAt E D S (unpack v)) → ∀ s, Has D S s →
    ∃ n r, dumpElems (dump E n) s vs = some r ∧ Keeps s r := by
  intro vs
  induction vs with
  | nil => intro _ s _; exact ⟨0, s, rfl, Keeps.of_eq rfl rfl⟩
  | cons v vs ih =>
    intro hv s hs
    obtain ⟨n, r, hr, hk⟩ := hv v (by simp) s hs
    cases vs with
    | nil =>
      refine ⟨n, r.write (asc "\n"), ?_, hk.trans (Keeps.of_eq rfl rfl)⟩
      simp [dumpElems, hr]
    | cons w vs =>
      have hk2 : Keeps s (r.write (asc ",\n")) := hk.trans (Keeps.of_eq rfl rfl)
      obtain ⟨m, t, ht, hk'⟩ := ih (fun u hu => hv u (by simp [hu])) _ (hs.keeps hk2)
      refine ⟨max n m, t, ?_, hk2.trans hk'⟩
      simp only [dumpElems, Option.bind_eq_some_iff]
      exact ⟨r, dump_mono' (Nat.le_max_left _ _) _ _ _ hr,
        dumpElems_ext (dump_mono' (Nat.le_max_right _ _)) _ _ _ ht⟩

theorem entry_ends {E : Env} {D S} {kv : Val × Val} (h1 : EndsAt E D S (unpack kv.1)) (h2 : EndsAt E D S (unpack kv.2))
    {s : St} (hs : Has D S s) : ∃ n r, dumpEntry (dump E n) s kv = some r ∧ Keeps s r := by
  obtain ⟨n, r, hr, hk⟩ := h1 s hs
  have hk2 : Keeps s { r.write (asc ": ") with noIndent := true } := hk.trans (Keeps.of_eq rfl rfl)
  obtain ⟨m, t, ht, hk'⟩ := h2 _ (hs.keeps hk2)
  refine ⟨max n m, t, ?_, hk2.trans hk'⟩
  simp only [dumpEntry, Option.bind_eq_some_iff]
  exact ⟨r, dump_mono' (Nat.le_max_left _ _) _ _ _ hr, dump_mono' (Nat.le_max_right _ _) _ _ _ ht⟩

theorem entries_end {E : Env} {D S} : ∀ (vs : List (Val × Val)),
    (∀ v ∈ vs, EndsAt E D S (unpack v.1) ∧ EndsAt E D S (unpack v.2)) → ∀ s, Has D S s →
    ∃ n r, dumpEntries (dump E n) s vs = some r ∧ Keeps s r := by
  intro vs
  induction vs with
  | nil => intro _ s _; exact ⟨0, s, rfl, Keeps.of_eq rfl rfl⟩
  | cons v vs ih =>
    intro hv s hs
    obtain ⟨n, r, hr, hk⟩ := entry_ends (hv v (by simp)).1 (hv v (by simp)).2 hs
    cases vs with
    | nil =>
      refine ⟨n, r.write (asc "\n"), ?_, hk.trans (Keeps.of_eq rfl rfl)⟩
      simp [dumpEntries, hr]
    | cons w vs =>
      have hk2 : Keeps s (r.write (asc ",\n")) := hk.trans (Keeps.of_eq rfl rfl)
      obtain ⟨m, t, ht, hk'⟩ := ih (fun u hu => hv u (by simp [hu])) _ (hs.keeps hk2)
      refine ⟨max n m, t, ?_, hk2.trans hk'⟩
      simp only [dumpEntries, Option.bind_eq_some_iff]
      exact ⟨r, dumpEntry_ext (dump_mono' (Nat.le_max_left _ _)) hr,
        dumpEntries_ext (dump_mono' (Nat.le_max_right _ _)) _ _ _ ht⟩

theorem fields_end {E : Env} {D S} : ∀ (vs : List (Bytes × Val)), (∀ v ∈ vs, EndsAt E D S (unpack v.2)) → ∀ s, Has D S s →
    ∃ n r, dumpFields E (dump E n) s vs = some r ∧ Keeps s r := by
  intro vs
  induction vs with
  | nil => intro _ s _; exact ⟨0, s, rfl, Keeps.of_eq rfl rfl⟩
  | cons v vs ih =>
    intro hv s hs
    have hk0 : Keeps s { (indent E s).write (v.1 ++ asc ": ") with noIndent := true } :=
      Keeps.of_eq (indent_depth E s) (indent_ptrs E s)
    obtain ⟨n, r, hr, hk⟩ := hv v (by simp) _ (hs.keeps hk0)
    cases vs with
    | nil =>
      refine ⟨n, r.write (asc "\n"), ?_, (hk0.trans hk).trans (Keeps.of_eq rfl rfl)⟩
      simp [dumpFields, dumpField, hr]
    | cons w vs =>
      have hk2 : Keeps s (r.write (asc ",\n")) := (hk0.trans hk).trans (Keeps.of_eq rfl rfl)
      obtain ⟨m, t, ht, hk'⟩ := ih (fun u hu => hv u (by simp [hu])) _ (hs.keeps hk2)
      refine ⟨max n m, t, ?_, hk2.trans hk'⟩
      simp only [dumpFields, dumpField, Option.bind_eq_some_iff]
      exact ⟨r, dump_mono' (Nat.le_max_left _ _) _ _ _ hr,
        dumpFields_ext (dump_mono' (Nat.le_max_right _ _)) _ _ _ ht⟩

/-- The depth is one that is shown. -/
def Within (E : Env) (D : Nat) : Prop := E.maxDepth = 0 ∨ (D : Int) ≤ E.maxDepth

theorem block_ends {E : Env} {D S} {body : Nat → St → Option St}
    (h : Within E (D + 1) → ∀ s, Has (D + 1) S s → ∃ n r, body n s = some r ∧ Keeps s r)
    {s : St} (hd : s.depth = D) (hS : ∀ a ∈ S, ∃ d ≤ D, s.ptrs a = some d) :
    ∃ n r, block E (body n) s = some r ∧ Keeps s r := by
  by_cases hm : E.maxDepth ≠ 0 ∧ ((D + 1 : Nat) : Int) > E.maxDepth
  · refine ⟨0, ?_⟩
    simp only [block]
    rw [if_pos (by simpa [St.write, hd] using hm)]
    refine ⟨_, rfl, ?_⟩
    · exact Keeps.of_eq (by simp [indent_depth, St.write]) (by simp [indent_ptrs, St.write])
  · have hw : Within E (D + 1) := by
      unfold Within
      by_cases h0 : E.maxDepth = 0
      · exact .inl h0
      · exact .inr (by by_contra hc; exact hm ⟨h0, by omega⟩)
    obtain ⟨n, r, hr, hk⟩ := h hw { s.write (asc "{\n") with depth := s.depth + 1 } ⟨by simp [hd], fun a ha => by
      obtain ⟨d, h1, h2⟩ := hS a ha
      exact ⟨d, by omega, h2⟩⟩
    refine ⟨n, ?_⟩
    simp only [block]
    rw [if_neg (by simpa [St.write, hd] using hm)]
    have : ({ s.write (asc "{\n") with depth := (s.write (asc "{\n")).depth + 1 } : St) =
      { s.write (asc "{\n") with depth := s.depth + 1 } := rfl
    rw [this, hr]
    refine ⟨_, rfl, ?_⟩
    · refine ⟨?_, fun a d h1 h2 => ?_⟩
      · have := hk.1
        simp only [St.write, indent_depth] at this ⊢
        omega
      · simp only [St.write, indent_ptrs]
        exact hk.2 a d (by simp only []; omega) h2

/-- A value that is no pointer ends when its parts do. -/
theorem rest_ends {E : Env} {D S v} (h : Within E (D + 1) → ∀ p ∈ parts E v, EndsAt E (D + 1) S p)
    {s : St} (hd : s.depth = D) (hS : ∀ a ∈ S, ∃ d ≤ D, s.ptrs a = some d) :
    ∃ n r, dumpRest E (dump E n) s v = some r ∧ Keeps s r := by
  simp only [dumpRest]
  generalize hs' : ({ (if s.noType = true then s else (indent E s).write (asc "(" ++ typeName v ++ asc ") ")) with
    noType := false } : St) = s1
  have e1 : s1.depth = s.depth := by rw [← hs']; split <;> simp [St.write, indent_depth]
  have e2 : s1.ptrs = s.ptrs := by rw [← hs']; split <;> simp [St.write, indent_ptrs]
  by_cases hm : (methText E v).2 = true
  · refine ⟨0, _, by rw [if_pos hm], Keeps.of_eq ?_ ?_⟩
    · simpa [St.write] using e1
    · simpa [St.write] using e2
  · simp only [hm, if_false, Bool.false_eq_true]
    generalize hs2 : (s1.write (lenText E v)).write (methText E v).1 = s2
    have f1 : s2.depth = D := by rw [← hs2]; simpa [St.write, e1] using hd
    have f2 : s2.ptrs = s.ptrs := by rw [← hs2]; simpa [St.write] using e2
    have key : ∃ n r, dumpKind E (dump E n) s2 v = some r ∧ Keeps s2 r := by
      have hS2 : ∀ a ∈ S, ∃ d ≤ D, s2.ptrs a = some d := by rw [f2]; exact hS
      cases v with
      | slice ty a cap =>
        simp only [dumpKind]
        by_cases h0 : a = 0
        · exact ⟨0, s2.write (asc "<nil>"), by rw [if_pos h0], Keeps.of_eq rfl rfl⟩
        · simp only [h0, if_false]
          refine block_ends (body := fun n s => dumpElems (dump E n) s (E.elems a)) (fun hw => ?_) f1 hS2
          refine elems_end _ fun v hv => h hw _ ?_
          simp only [parts, h0, if_false, List.mem_map]
          exact ⟨v, hv, rfl⟩
      | array ty vs =>
        refine block_ends (body := fun n s => dumpElems (dump E n) s vs) (fun hw => ?_) f1 hS2
        refine elems_end _ fun v hv => h hw _ ?_
        simp only [parts, List.mem_map]
        exact ⟨v, hv, rfl⟩
      | map ty a =>
        simp only [dumpKind]
        by_cases h0 : a = 0
        · exact ⟨0, s2.write (asc "<nil>"), by rw [if_pos h0], Keeps.of_eq rfl rfl⟩
        · simp only [h0, if_false]
          refine block_ends (body := fun n s => dumpEntries (dump E n) s (E.entries a)) (fun hw => ?_) f1 hS2
          refine entries_end _ fun v hv => ⟨h hw _ ?_, h hw _ ?_⟩ <;>
          · simp only [parts, h0, if_false, List.mem_flatMap]
            exact ⟨v, hv, by simp⟩
      | struct ty fs =>
        refine block_ends (body := fun n s => dumpFields E (dump E n) s fs) (fun hw => ?_) f1 hS2
        refine fields_end _ fun v hv => h hw _ ?_
        simp only [parts, List.mem_map]
        exact ⟨v, hv, rfl⟩
      | blob ty isNil b cap =>
        simp only [dumpKind]
        by_cases h0 : isNil = true
        · exact ⟨0, s2.write (asc "<nil>"), by rw [if_pos h0], Keeps.of_eq rfl rfl⟩
        · simp only [h0, if_false, Bool.false_eq_true]
          refine block_ends (S := S) (body := fun _ s => some (s.write (blobText E s.depth b))) (fun _ s _ => ?_) f1 hS2
          exact ⟨0, _, rfl, Keeps.of_eq rfl rfl⟩
      | _ => exact ⟨0, _, rfl, Keeps.of_eq rfl rfl⟩
    obtain ⟨n, r, hr, hk⟩ := key
    exact ⟨n, r, hr, (Keeps.of_eq (f1.trans hd.symm) f2).trans hk⟩

/-- Following pointers ends where the pointers do. -/
theorem chase_ends {E : Env} {D : Nat} {v : Val} (h : Acc (Target E) v) : ∀ p ch ind,
    ∃ n c, chase E D n p ch ind v = some c ∧ (∀ a d, d ≤ D → p a = some d → c.ptrs a = some d) ∧
      (c.stop = .value → ¬IsPtr c.last ∧ Reach E v c.last ∧
        ∀ ty a, v = .ptr ty a → c.ptrs a = some D ∧ shownAbove p D a = false) := by
  induction h with
  | intro v _ ih =>
    intro p ch ind
    by_cases hp : IsPtr v
    · cases v with
      | ptr ty a =>
        by_cases h0 : a = 0
        · exact ⟨1, ⟨p, ch, ind, .nil, .ptr ty a⟩, by rw [chase, if_pos h0], fun _ _ _ h => h, fun h => (nomatch h)⟩
        · by_cases h1 : shownAbove p D a = true
          · exact ⟨1, ⟨p, ch ++ [a], ind, .cycle, .ptr ty a⟩, by rw [chase, if_neg h0, if_pos h1], fun _ _ _ h => h, fun h => (nomatch h)⟩
          · have h1' : shownAbove p D a = false := by simpa using h1
            have hext : ∀ b d, d ≤ D → p b = some d → setPtr p a D b = some d := by
              intro b d hd hb
              unfold setPtr
              by_cases hba : b = a
              · rw [if_pos hba]
                subst hba
                unfold shownAbove at h1'
                rw [hb] at h1'
                simp only [decide_eq_false_iff_not] at h1'
                congr 1; omega
              · rw [if_neg hba]; exact hb
            by_cases hn : ∃ ty', unpack (E.at_ a) = .nilIface ty'
            · obtain ⟨ty', hn⟩ := hn
              refine ⟨1, ⟨setPtr p a D, ch ++ [a], ind + 1, .nil, .nilIface ty'⟩, by rw [chase, if_neg h0, if_neg h1, hn], hext, fun h => (nomatch h)⟩
            · obtain ⟨n, c, hc, hc1, hc2⟩ := ih (unpack (E.at_ a)) ⟨ty, a, rfl, h0, rfl⟩ (setPtr p a D) (ch ++ [a]) (ind + 1)
              refine ⟨n + 1, c, ?_, fun b d hd hb => hc1 b d hd (hext b d hd hb), fun hst => ?_⟩
              · rw [chase, if_neg h0, if_neg h1]
                split
                · rename_i ty' he; exact absurd ⟨ty', he⟩ hn
                · exact hc
              · obtain ⟨k1, k2, -⟩ := hc2 hst
                refine ⟨k1, Reach.trans (.target .refl ⟨ty, a, rfl, h0, rfl⟩) k2, ?_⟩
                intro ty' a' he
                cases he
                exact ⟨hc1 a D (Nat.le_refl _) (by simp [setPtr]), h1'⟩
      | _ => exact absurd hp (by simp [IsPtr])
    · refine ⟨0, ⟨p, ch, ind, .value, v⟩, ?_, fun _ _ _ h => h, fun _ => ⟨hp, .refl, ?_⟩⟩
      · unfold chase
        cases v <;> first | rfl | exact absurd trivial hp
      · intro ty a he; rw [he] at hp; exact absurd trivial hp

theorem dump_of_not_ptr {E : Env} {n : Nat} {s : St} {v : Val} (hp : ¬IsPtr v) (hi : v ≠ .invalid) :
    dump E (n + 1) s v = dumpRest E (dump E n) s v := by
  cases v <;> first | rfl | exact absurd rfl hi | exact absurd trivial hp

/-- A value that is no pointer ends when its parts do, with the parts at depth `D` counted as shown. -/
theorem nonptr_ends {E : Env} {D S v} (hp : ¬IsPtr v) (h : Within E (D + 1) → ∀ p ∈ parts E v, EndsAt E (D + 1) S p)
    {s : St} (hd : s.depth = D) (hS : ∀ a ∈ S, ∃ d ≤ D, s.ptrs a = some d) :
    ∃ n r, dump E n s v = some r ∧ Keeps s r := by
  by_cases hi : v = .invalid
  · subst hi
    exact ⟨1, _, rfl, Keeps.of_eq rfl rfl⟩
  · obtain ⟨n, r, hr, hk⟩ := rest_ends h hd hS
    exact ⟨n + 1, r, by rw [dump_of_not_ptr hp hi]; exact hr, hk⟩

theorem prune_some {D p a d} : prune D p a = some d ↔ p a = some d ∧ d < D := by
  unfold prune
  split
  · rename_i e he
    rw [he]
    split
    · simp only [Option.some.injEq, false_iff, not_and, reduceCtorEq]
      intro h; omega
    · simp only [Option.some.injEq]
      constructor
      · intro h; subst h; exact ⟨rfl, by omega⟩
      · exact fun h => h.1
  · rename_i he; rw [he]; simp

/-- A pointer ends when the parts of what it leads to end, with the pointer itself counted as shown. -/
theorem ptr_ends {E : Env} {D S ty a} (hc : Acc (Target E) (.ptr ty a))
    (h : a ∉ S → ∀ w, Reach E (.ptr ty a) w → ¬IsPtr w → Within E (D + 1) → ∀ p ∈ parts E w, EndsAt E (D + 1) (insert a S) p) :
    EndsAt E D S (.ptr ty a) := by
  intro s hs
  have hs' : Has D S (indent E s) := ⟨by rw [indent_depth]; exact hs.1, by rw [indent_ptrs]; exact hs.2⟩
  obtain ⟨n, c, hc1, hc2, hc3⟩ := chase_ends (D := (indent E s).depth) hc (prune (indent E s).depth (indent E s).ptrs) [] 0
  have hkeep : ∀ b d, d < s.depth → s.ptrs b = some d → c.ptrs b = some d := by
    intro b d h1 h2
    rw [indent_depth, indent_ptrs] at hc2
    exact hc2 b d (by omega) (prune_some.2 ⟨h2, h1⟩)
  cases hst : c.stop with
  | nil =>
    refine ⟨n + 1, ?_⟩
    simp only [dump, dumpPtr, hc1, hst]
    refine ⟨_, rfl, ?_, ?_⟩
    · split <;> simp [St.write, indent_depth]
    · intro b d h1 h2
      have := hkeep b d h1 h2
      split <;> simpa [St.write] using this
  | cycle =>
    refine ⟨n + 1, ?_⟩
    simp only [dump, dumpPtr, hc1, hst]
    refine ⟨_, rfl, ?_, ?_⟩
    · split <;> simp [St.write, indent_depth]
    · intro b d h1 h2
      have := hkeep b d h1 h2
      split <;> simpa [St.write] using this
  | value =>
    obtain ⟨hl1, hl2, hl3⟩ := hc3 hst
    obtain ⟨ha1, ha2⟩ := hl3 ty a rfl
    rw [indent_depth, hs.1] at ha1 ha2
    rw [indent_ptrs] at ha2
    have haS : a ∉ S := by
      intro haS
      obtain ⟨d, hd, hsa⟩ := hs.2 a haS
      have := (prune_some (D := D)).2 ⟨hsa, hd⟩
      unfold shownAbove at ha2
      rw [this] at ha2
      simp only [decide_eq_false_iff_not] at ha2
      omega
    generalize hs1 : ((if E.disableAddresses = false ∧ c.chain ≠ [] then
        (({ indent E s with ptrs := c.ptrs } : St).write (asc "(" ++ rep (asc "*") c.indirects ++ typeName c.last ++ asc ")")).write
          (asc "(" ++ chainText c.chain ++ asc ")")
      else ({ indent E s with ptrs := c.ptrs } : St).write (asc "(" ++ rep (asc "*") c.indirects ++ typeName c.last ++ asc ")")).write
        (asc "(")) = s1
    have e1 : s1.depth = D := by rw [← hs1]; split <;> simp [St.write, indent_depth, hs.1]
    have e2 : s1.ptrs = c.ptrs := by rw [← hs1]; split <;> simp [St.write]
    obtain ⟨m, r, hr, hk⟩ := nonptr_ends (E := E) (D := D) (S := insert a S) hl1 (fun hw => h haS _ hl2 hl1 hw)
      (s := { s1 with noType := true }) e1 (by
        intro b hb
        simp only [e2]
        rcases Finset.mem_insert.1 hb with rfl | hb
        · exact ⟨D, Nat.le_refl _, ha1⟩
        · obtain ⟨d, hd, hsb⟩ := hs.2 b hb
          exact ⟨d, by omega, hkeep b d (by rw [hs.1]; exact hd) hsb⟩)
    refine ⟨max n m + 1, ?_⟩
    have hc1' := chase_mono hc1 (max n m - n)
    rw [show n + (max n m - n) = max n m by omega] at hc1'
    have hr' := dump_mono' (Nat.le_max_right n m) _ _ _ hr
    refine ⟨r.write (asc ")"), ?_, ?_, ?_⟩
    · simp only [dump, dumpPtr, hc1', hst]
      rw [hs1]
      simp [hr']
    · have := hk.1
      simp only [St.write] at this ⊢
      rw [this, e1, hs.1]
    · intro b d h1 h2
      have := hkeep b d h1 h2
      simp only [St.write]
      exact hk.2 b d (by simp only [e1, ← hs.1]; exact h1) (by simp only [e2]; exact this)

/-- Nothing infinite can be followed from `v` except through pointers, nothing infinite through pointers
alone, and the pointers are finitely many. -/
structure Tame (E : Env) (v : Val) : Prop where
  parts : ∀ w, Reach E v w → Acc (Part E) w
  chains : ∀ w, Reach E v w → Acc (Target E) w
  finite : ∃ A : Finset Nat, ∀ ty a, Reach E v (.ptr ty a) → a ∈ A

theorem tame_ends_at {E : Env} {v : Val} (h1 : ∀ w, Reach E v w → Acc (Part E) w)
    (h2 : ∀ w, Reach E v w → Acc (Target E) w) (A : Finset Nat) (h3 : ∀ ty a, Reach E v (.ptr ty a) → a ∈ A) :
    ∀ k (w : Val), Acc (Part E) w → Reach E v w → ∀ D S, (A \ S).card ≤ k → EndsAt E D S w := by
  intro k
  induction k with
  | zero =>
    intro w hw
    induction hw with
    | intro w _ ih =>
      intro hr D S hk
      by_cases hp : IsPtr w
      · cases w with
        | ptr ty a =>
          refine ptr_ends (h2 _ hr) fun haS => ?_
          have : a ∈ A \ S := Finset.mem_sdiff.2 ⟨h3 ty a hr, haS⟩
          have := Finset.card_pos.2 ⟨a, this⟩
          omega
        | _ => exact absurd hp (by simp [IsPtr])
      · intro s hs
        refine nonptr_ends hp (fun _ p hpp => ih p hpp (.part hr hpp) (D + 1) S hk) hs.1 fun a ha => ?_
        obtain ⟨d, hd, hsa⟩ := hs.2 a ha
        exact ⟨d, by omega, hsa⟩
  | succ k ihk =>
    intro w hw
    induction hw with
    | intro w _ ih =>
      intro hr D S hk
      by_cases hp : IsPtr w
      · cases w with
        | ptr ty a =>
          refine ptr_ends (h2 _ hr) fun haS u hu _ _ p hpp => ?_
          have hru : Reach E v p := .part (hr.trans hu) hpp
          refine ihk p (h1 p hru) hru (D + 1) (insert a S) ?_
          have hlt : (A \ insert a S).card < (A \ S).card := by
            apply Finset.card_lt_card
            rw [Finset.ssubset_iff_of_subset (Finset.sdiff_subset_sdiff (Finset.Subset.refl _) (Finset.subset_insert _ _))]
            exact ⟨a, Finset.mem_sdiff.2 ⟨h3 ty a hr, haS⟩, by simp⟩
          omega
        | _ => exact absurd hp (by simp [IsPtr])
      · intro s hs
        refine nonptr_ends hp (fun _ p hpp => ih p hpp (.part hr hpp) (D + 1) S hk) hs.1 fun a ha => ?_
        obtain ⟨d, hd, hsa⟩ := hs.2 a ha
        exact ⟨d, by omega, hsa⟩

/-- **C103, where it holds**: `Sdump` ends on every value, however its parts are shared and however it
contains itself, as long as every circle goes through a pointer and through something that is no
pointer.  What is missing: circles of pointers alone, and circles through maps and slices without a
pointer (`pointer_circle_hangs`, `slice_circle_hangs`, `map_circle_hangs`). -/
theorem sdump_ends_partial {E : Env} {v : Val} (h : Tame E v) : ∃ n out, sdump E n (some v) = some out := by
  obtain ⟨A, hA⟩ := h.finite
  obtain ⟨n, r, hr, -⟩ := tame_ends_at h.parts h.chains A hA (A \ ∅).card v (h.parts v .refl) .refl 0 ∅ (Nat.le_refl _)
    St.init ⟨rfl, by simp⟩
  exact ⟨n, _, by simp [sdump, hr]; rfl⟩

/-- **C103**: with a `MaxDepth` it also ends on circles through maps and slices; only circles of pointers
alone are left. -/
theorem sdump_ends_with_max_depth_partial {E : Env} {v : Val} (hm : E.maxDepth ≠ 0)
    (h : ∀ w, Reach E v w → Acc (Target E) w) : ∃ n out, sdump E n (some v) = some out := by
  have key : ∀ (k D : Nat), (E.maxDepth - D).toNat ≤ k → ∀ w, Reach E v w → EndsAt E D ∅ w := by
    intro k
    induction k with
    | zero =>
      intro D hD w hr
      have hno : ¬Within E (D + 1) := by
        unfold Within
        rintro (h0 | h0)
        · exact hm h0
        · omega
      by_cases hp : IsPtr w
      · cases w with
        | ptr ty a => exact ptr_ends (h _ hr) fun _ _ _ _ hw => absurd hw hno
        | _ => exact absurd hp (by simp [IsPtr])
      · exact fun s hs => nonptr_ends (S := ∅) hp (fun hw => absurd hw hno) hs.1 (by simp)
    | succ k ih =>
      intro D hD w hr
      by_cases hp : IsPtr w
      · cases w with
        | ptr ty a =>
          refine ptr_ends (h _ hr) fun _ u hu _ hw p hpp s hs => ?_
          exact ih (D + 1) (by unfold Within at hw; omega) p (.part (hr.trans hu) hpp) s ⟨hs.1, by simp⟩
        | _ => exact absurd hp (by simp [IsPtr])
      · refine fun s hs => nonptr_ends (S := ∅) hp (fun hw p hpp => ?_) hs.1 (by simp)
        exact ih (D + 1) (by unfold Within at hw; omega) p (.part hr hpp)
  obtain ⟨n, r, hr, -⟩ := key _ 0 (Nat.le_refl _) v .refl St.init ⟨rfl, by simp⟩
  exact ⟨n, _, by simp [sdump, hr]; rfl⟩

/-! ## Where it hangs -/

theorem chase_circle {E : Env} {ty : Bytes} {a : Nat} (ha : a ≠ 0) (h : unpack (E.at_ a) = .ptr ty a) :
    ∀ n p ch ind, chase E 0 n p ch ind (.ptr ty a) = none := by
  intro n
  induction n with
  | zero => intro p ch ind; rfl
  | succ n ih =>
    intro p ch ind
    rw [chase, if_neg ha, if_neg (by unfold shownAbove; split <;> simp)]
    split
    · rename_i ty' he; rw [he] at h; exact absurd h (by simp)
    · rw [h]; exact ih _ _ _

/-- **C103 fails**: `Sdump` of a pointer that leads back to itself without anything in between never ends,
whatever the configuration: `var x interface{}; x = &x`, or `type P *P; var p P; p = &p`.  The pointer is
only looked for among those of smaller depth, and the depth is the same. -/
theorem pointer_circle_hangs {E : Env} {ty : Bytes} {a : Nat} (ha : a ≠ 0) (h : unpack (E.at_ a) = .ptr ty a) (n : Nat) :
    sdump E n (some (.ptr ty a)) = none := by
  simp only [sdump, Option.map_eq_none_iff]
  cases n with
  | zero => rfl
  | succ n =>
    simp only [dump, dumpPtr]
    rw [indent_depth]
    rw [show chase E St.init.depth n _ [] 0 (.ptr ty a) = none from chase_circle ha h n _ _ _]

theorem dumpElems_none {f : St → Val → Option St} {x : Val} (hx : ∀ s, f s (unpack x) = none) :
    ∀ vs s, x ∈ vs → dumpElems f s vs = none := by
  intro vs
  induction vs with
  | nil => intro s h; cases h
  | cons v vs ih =>
    intro s h
    cases vs with
    | nil =>
      simp only [List.mem_singleton] at h
      subst h
      simp [dumpElems, hx]
    | cons w vs =>
      simp only [dumpElems, Option.bind_eq_none_iff]
      rcases List.mem_cons.1 h with rfl | h
      · intro r hr; rw [hx] at hr; cases hr
      · intro r _; exact ih _ h

theorem dumpEntries_none {f : St → Val → Option St} {x : Val × Val} (hx : ∀ s, f s (unpack x.2) = none) :
    ∀ vs s, x ∈ vs → dumpEntries f s vs = none := by
  have he : ∀ s, dumpEntry f s x = none := by
    intro s
    simp only [dumpEntry, Option.bind_eq_none_iff]
    intro r _; exact hx _
  intro vs
  induction vs with
  | nil => intro s h; cases h
  | cons v vs ih =>
    intro s h
    cases vs with
    | nil =>
      simp only [List.mem_singleton] at h
      subst h
      simp [dumpEntries, he]
    | cons w vs =>
      simp only [dumpEntries, Option.bind_eq_none_iff]
      rcases List.mem_cons.1 h with rfl | h
      · intro r hr; rw [he] at hr; cases hr
      · intro r _; exact ih _ h

/-- **C103 fails**: a slice that contains itself, `s := []interface{}{nil}; s[0] = s`, is dumped for ever
(the goroutine's stack overflows) unless a `MaxDepth` is set or a method takes over. -/
theorem slice_circle_hangs {E : Env} {ty : Bytes} {a cap : Nat} {x : Val} (hm : E.maxDepth = 0) (ha : a ≠ 0)
    (hmeth : (methText E (.slice ty a cap)).2 = false) (hx : x ∈ E.elems a) (h : unpack x = .slice ty a cap) (n : Nat) :
    sdump E n (some (.slice ty a cap)) = none := by
  have key : ∀ n s, dump E n s (.slice ty a cap) = none := by
    intro n
    induction n with
    | zero => intro s; rfl
    | succ n ih =>
      intro s
      simp only [dump, dumpRest, hmeth, dumpKind, ha, if_false, block, Option.map_eq_none_iff, hm, ne_eq,
        not_true_eq_false, false_and, Bool.false_eq_true]
      exact dumpElems_none (by rw [h]; exact ih) _ _ hx
  simp [sdump, key]

/-- **C103 fails**: a map that contains itself as a value, `m := map[string]interface{}{}; m["m"] = m`, is
dumped for ever in the same way. -/
theorem map_circle_hangs {E : Env} {ty : Bytes} {a : Nat} {x : Val × Val} (hm : E.maxDepth = 0) (ha : a ≠ 0)
    (hmeth : (methText E (.map ty a)).2 = false) (hx : x ∈ E.entries a) (h : unpack x.2 = .map ty a) (n : Nat) :
    sdump E n (some (.map ty a)) = none := by
  have key : ∀ n s, dump E n s (.map ty a) = none := by
    intro n
    induction n with
    | zero => intro s; rfl
    | succ n ih =>
      intro s
      simp only [dump, dumpRest, hmeth, dumpKind, ha, if_false, block, Option.map_eq_none_iff, hm, ne_eq,
        not_true_eq_false, false_and, Bool.false_eq_true]
      exact dumpEntries_none (by rw [h]; exact ih) _ _ hx
  simp [sdump, key]

/-! ## Concrete cases -/

/-- A world to try things in: the configuration of `spewConfig` (/repo/test/testify/assert/assertions.go
1242-1247) and no methods. -/
def Env.sample (at_ : Nat → Val) (elems : Nat → List Val) (entries : Nat → List (Val × Val)) : Env where
  indent := asc " "
  maxDepth := 0
  disableMethods := false
  disableAddresses := true
  disableCapacities := true
  continueOnMethod := false
  at_ := at_
  elems := elems
  entries := entries
  meth := fun _ => .none
  quote := fun s => asc "\"" ++ s ++ asc "\""

/-- Two nodes pointing at each other. -/
def ring : Env := Env.sample
  (fun a => if a = 1 then .struct (asc "main.Node") [(asc "Next", .ptr (asc "*main.Node") 2)]
    else .struct (asc "main.Node") [(asc "Next", .ptr (asc "*main.Node") 1)]) (fun _ => []) (fun _ => [])

theorem ring_reach {w : Val} (h : Reach ring (.ptr (asc "*main.Node") 1) w) :
    ∃ a, (a = 1 ∨ a = 2) ∧ (w = .ptr (asc "*main.Node") a ∨ w = .struct (asc "main.Node") [(asc "Next", .ptr (asc "*main.Node") a)]) := by
  induction h with
  | refl => exact ⟨1, .inl rfl, .inl rfl⟩
  | part _ hp ih =>
    obtain ⟨a, ha, rfl | rfl⟩ := ih
    · simp [Part, parts] at hp
    · simp only [Part, parts, List.map_cons, List.map_nil, unpack, List.mem_singleton] at hp
      exact ⟨a, ha, .inl hp⟩
  | target _ ht ih =>
    obtain ⟨a, ha, rfl | rfl⟩ := ih
    · obtain ⟨ty, b, hb, -, rfl⟩ := ht
      cases hb
      rcases ha with rfl | rfl
      · exact ⟨2, .inr rfl, .inr rfl⟩
      · exact ⟨1, .inl rfl, .inr rfl⟩
    · obtain ⟨ty, b, hb, -, -⟩ := ht
      cases hb

theorem ring_tame : Tame ring (.ptr (asc "*main.Node") 1) where
  parts := by
    have h1 : ∀ a, Acc (Part ring) (.ptr (asc "*main.Node") a) := fun a => ⟨_, fun w hw => by simp [Part, parts] at hw⟩
    intro w hw
    obtain ⟨a, -, rfl | rfl⟩ := ring_reach hw
    · exact h1 a
    · refine ⟨_, fun w hw => ?_⟩
      simp only [Part, parts, List.map_cons, List.map_nil, unpack, List.mem_singleton] at hw
      subst hw; exact h1 a
  chains := by
    have h1 : ∀ fs, Acc (Target ring) (.struct (asc "main.Node") fs) := fun fs => ⟨_, fun w hw => by
      obtain ⟨ty, b, hb, -, -⟩ := hw
      cases hb⟩
    intro w hw
    obtain ⟨a, -, rfl | rfl⟩ := ring_reach hw
    · refine ⟨_, fun w hw => ?_⟩
      obtain ⟨ty, b, hb, -, rfl⟩ := hw
      cases hb
      by_cases h : a = 1
      · simp only [ring, Env.sample, h, if_true, unpack]; exact h1 _
      · simp only [ring, Env.sample, h, if_false, unpack]; exact h1 _
    · exact h1 _
  finite := by
    refine ⟨{1, 2}, fun ty a h => ?_⟩
    obtain ⟨b, hb, h | h⟩ := ring_reach h
    · cases h
      rcases hb with rfl | rfl <;> simp
    · cases h

/-- The ring is dumped, once round. -/
example : sdump ring 9 (some (.ptr (asc "*main.Node") 1)) =
    some (asc "(*main.Node)({\n Next: (*main.Node)({\n  Next: (*main.Node)(<already shown>)\n })\n})\n") := by
  decide +kernel

/-- `var x interface{}; x = &x`. -/
example (n : Nat) : sdump (Env.sample (fun _ => .iface (asc "interface {}") (.ptr (asc "*interface {}") 1)) (fun _ => []) (fun _ => [])) n
    (some (.ptr (asc "*interface {}") 1)) = none := pointer_circle_hangs (by decide) rfl n

/-- `s := []interface{}{1, nil}; s[1] = s`. -/
example (n : Nat) : sdump (Env.sample (fun _ => .invalid)
    (fun _ => [.iface (asc "interface {}") (.num (asc "int") (asc "1")), .iface (asc "interface {}") (.slice (asc "[]interface {}") 1 2)]) (fun _ => [])) n
    (some (.slice (asc "[]interface {}") 1 2)) = none :=
  slice_circle_hangs (x := .iface (asc "interface {}") (.slice (asc "[]interface {}") 1 2)) rfl (by decide) rfl
    (by simp [Env.sample]) rfl n

/-- `m := map[string]interface{}{}; m["m"] = m`. -/
example (n : Nat) : sdump (Env.sample (fun _ => .invalid) (fun _ => [])
    (fun _ => [(.str (asc "string") (asc "m"), .iface (asc "interface {}") (.map (asc "map[string]interface {}") 1))])) n
    (some (.map (asc "map[string]interface {}") 1)) = none :=
  map_circle_hangs (x := (.str (asc "string") (asc "m"), .iface (asc "interface {}") (.map (asc "map[string]interface {}") 1)))
    rfl (by decide) rfl (by simp [Env.sample]) rfl n

/-- The same slice with `MaxDepth: 2`. -/
example : sdump { Env.sample (fun _ => .invalid)
    (fun _ => [.iface (asc "interface {}") (.slice (asc "[]interface {}") 1 1)]) (fun _ => []) with maxDepth := 2 } 9
    (some (.slice (asc "[]interface {}") 1 1)) =
    some (asc "([]interface {}) (len=1) {\n ([]interface {}) (len=1) {\n  ([]interface {}) (len=1) {\n   <max depth reached>\n  }\n }\n}\n") := by
  decide +kernel

end Verif.Spew
