import Verif.Spew.Format

/-!
# go-spew: on which values the formatter ends, and where it loses types

format.go 199-200 promises that circular data structures are detected and handled properly.
-/

namespace Verif.Spew

/-! ## More fuel does not change the result -/

theorem formatBare_ext {f g} (h : Ext f g) {s v r} (hr : formatBare f s v = some r) : formatBare g s v = some r := h _ _ _ hr

theorem formatElems_ext {f g} (h : Ext f g) : ∀ vs b s r, formatElems f b s vs = some r → formatElems g b s vs = some r := by
  intro vs
  induction vs with
  | nil => intro b s r hr; exact hr
  | cons v vs ih =>
    intro b s r hr
    simp only [formatElems, Option.bind_eq_some_iff] at hr ⊢
    obtain ⟨x, hx, hy⟩ := hr
    exact ⟨x, formatBare_ext h hx, ih _ _ _ hy⟩

theorem formatEntries_ext {f g} (h : Ext f g) : ∀ vs b s r, formatEntries f b s vs = some r → formatEntries g b s vs = some r := by
  intro vs
  induction vs with
  | nil => intro b s r hr; exact hr
  | cons kv vs ih =>
    obtain ⟨k, v⟩ := kv
    intro b s r hr
    simp only [formatEntries, Option.bind_eq_some_iff] at hr ⊢
    obtain ⟨x, hx, y, hy, hz⟩ := hr
    exact ⟨x, formatBare_ext h hx, y, formatBare_ext h hy, ih _ _ _ hz⟩

theorem formatFields_ext {F f g} (h : Ext f g) : ∀ vs b s r, formatFields F f b s vs = some r → formatFields F g b s vs = some r := by
  intro vs
  induction vs with
  | nil => intro b s r hr; exact hr
  | cons nv vs ih =>
    obtain ⟨name, v⟩ := nv
    intro b s r hr
    simp only [formatFields, Option.bind_eq_some_iff] at hr ⊢
    obtain ⟨x, hx, hy⟩ := hr
    exact ⟨x, h _ _ _ hx, ih _ _ _ hy⟩

theorem formatBlock_ext {E : Env} {o cl : Bytes} {b c : St → Option St} (h : ∀ s r, b s = some r → c s = some r) {s r}
    (hr : formatBlock E o cl b s = some r) : formatBlock E o cl c s = some r := by
  simp only [formatBlock, Option.map_eq_some_iff] at hr ⊢
  obtain ⟨x, hx, rfl⟩ := hr
  refine ⟨x, ?_, rfl⟩
  split at hx
  · rename_i h1; rw [if_pos h1]; exact hx
  · rename_i h1; rw [if_neg h1]; exact h _ _ hx

theorem formatKind_ext {E F f g} (h : Ext f g) {v s r} (hr : formatKind E F f s v = some r) : formatKind E F g s v = some r := by
  cases v with
  | slice ty a cap =>
    simp only [formatKind] at hr ⊢
    split
    · rename_i h0; rw [if_pos h0] at hr; exact hr
    · rename_i h0; rw [if_neg h0] at hr
      exact formatBlock_ext (formatElems_ext h _ _) hr
  | array ty vs => exact formatBlock_ext (formatElems_ext h _ _) hr
  | map ty a =>
    simp only [formatKind] at hr ⊢
    split
    · rename_i h0; rw [if_pos h0] at hr; exact hr
    · rename_i h0; rw [if_neg h0] at hr
      exact formatBlock_ext (formatEntries_ext h _ _) hr
  | struct ty fs => exact formatBlock_ext (formatFields_ext h _ _) hr
  | _ => exact hr

theorem formatRest_ext {E F f g} (h : Ext f g) {v s r} (hr : formatRest E F f s v = some r) : formatRest E F g s v = some r := by
  simp only [formatRest] at hr ⊢
  split at hr
  · rename_i h0; rw [if_pos h0]; exact hr
  · rename_i h0; rw [if_neg h0]; exact formatKind_ext h hr

theorem format_mono1 {E : Env} {F : Flags} : ∀ n, Ext (format E F n) (format E F (n + 1)) := by
  intro n
  induction n with
  | zero => intro s v r h; cases h
  | succ n ih =>
    intro s v r h
    unfold format at h ⊢
    split at h
    · exact h
    · simp only [formatPtr] at h ⊢
      split at h
      · rename_i h0; rw [if_pos h0]; exact h
      · rename_i h0
        rw [if_neg h0]
        split at h
        · cases h
        · rename_i c hc
          rw [chase_mono hc 1]
          simp only at h ⊢
          split at h
          · exact h
          · exact h
          · exact ih _ _ _ h
    · exact formatRest_ext ih h

theorem format_mono' {E : Env} {F : Flags} {m n : Nat} (h : m ≤ n) : Ext (format E F m) (format E F n) := by
  obtain ⟨k, rfl⟩ := Nat.exists_eq_add_of_le h
  clear h
  induction k with
  | zero => exact fun _ _ _ h => h
  | succ k ih => exact fun s v r h => format_mono1 (m + k) _ _ _ (ih _ _ _ h)

/-- What is written does not depend on the fuel. -/
theorem format_det {E : Env} {F : Flags} {m n : Nat} {s v r t} (h : format E F m s v = some r) (k : format E F n s v = some t) : r = t := by
  have h1 := format_mono' (Nat.le_max_left m n) _ _ _ h
  have h2 := format_mono' (Nat.le_max_right m n) _ _ _ k
  rw [h1] at h2; exact Option.some.inj h2

/-! ## Ending -/

/-- `v` is formatted in finitely many steps at depth `D` with `S` shown above. -/
def FEndsAt (E : Env) (F : Flags) (D : Nat) (S : Finset Nat) (v : Val) : Prop :=
  ∀ s, Has D S s → ∃ n r, format E F n s v = some r ∧ Keeps s r

theorem keeps_behind (s : St) (v : Val) : Keeps s (showBehind s v) := Keeps.of_eq (showBehind_fields s v).2.1 (showBehind_fields s v).2.2

theorem keeps_gap (b : Bool) (s : St) : Keeps s (gap b s) := Keeps.of_eq (gap_depth b s) (gap_ptrs b s)

theorem formatBare_ends {E : Env} {F : Flags} {D S v} (h : FEndsAt E F D S (unpack v)) {s : St} (hs : Has D S s) :
    ∃ n r, formatBare (format E F n) s v = some r ∧ Keeps s r := by
  have hk0 : Keeps s (showBehind { s with noType := true } v) := (Keeps.of_eq rfl rfl : Keeps s { s with noType := true }).trans (keeps_behind _ v)
  obtain ⟨n, r, hr, hk⟩ := h _ (hs.keeps hk0)
  exact ⟨n, r, hr, hk0.trans hk⟩

theorem formatElems_end {E : Env} {F : Flags} {D S} : ∀ (vs : List Val), (∀ v ∈ vs, FEndsAt E F D S (unpack v)) → ∀ b s, Has D S s →
    ∃ n r, formatElems (format E F n) b s vs = some r ∧ Keeps s r := by
  intro vs
  induction vs with
  | nil => intro _ b s _; exact ⟨0, s, rfl, Keeps.of_eq rfl rfl⟩
  | cons v vs ih =>
    intro hv b s hs
    obtain ⟨n, r, hr, hk⟩ := formatBare_ends (hv v (by simp)) (hs.keeps (keeps_gap b s))
    have hk2 := (keeps_gap b s).trans hk
    obtain ⟨m, t, ht, hk'⟩ := ih (fun u hu => hv u (by simp [hu])) false _ (hs.keeps hk2)
    refine ⟨max n m, t, ?_, hk2.trans hk'⟩
    simp only [formatElems, Option.bind_eq_some_iff]
    exact ⟨r, formatBare_ext (format_mono' (Nat.le_max_left _ _)) hr,
      formatElems_ext (format_mono' (Nat.le_max_right _ _)) _ _ _ _ ht⟩

theorem formatEntries_end {E : Env} {F : Flags} {D S} : ∀ (vs : List (Val × Val)),
    (∀ v ∈ vs, FEndsAt E F D S (unpack v.1) ∧ FEndsAt E F D S (unpack v.2)) → ∀ b s, Has D S s →
    ∃ n r, formatEntries (format E F n) b s vs = some r ∧ Keeps s r := by
  intro vs
  induction vs with
  | nil => intro _ b s _; exact ⟨0, s, rfl, Keeps.of_eq rfl rfl⟩
  | cons kv vs ih =>
    obtain ⟨k, v⟩ := kv
    intro hv b s hs
    obtain ⟨n, r, hr, hk⟩ := formatBare_ends (hv (k, v) (by simp)).1 (hs.keeps (keeps_gap b s))
    have hk2 : Keeps s (r.write (asc ":")) := ((keeps_gap b s).trans hk).trans (Keeps.of_eq rfl rfl)
    obtain ⟨m, t, ht, hk'⟩ := formatBare_ends (hv (k, v) (by simp)).2 (hs.keeps hk2)
    have hk3 := hk2.trans hk'
    obtain ⟨l, u, hu, hk''⟩ := ih (fun u hu => hv u (by simp [hu])) false _ (hs.keeps hk3)
    refine ⟨max n (max m l), u, ?_, hk3.trans hk''⟩
    simp only [formatEntries, Option.bind_eq_some_iff]
    exact ⟨r, formatBare_ext (format_mono' (by omega)) hr, t, formatBare_ext (format_mono' (by omega)) ht,
      formatEntries_ext (format_mono' (by omega)) _ _ _ _ hu⟩

theorem formatFields_end {E : Env} {F : Flags} {D S} : ∀ (vs : List (Bytes × Val)), (∀ v ∈ vs, FEndsAt E F D S (unpack v.2)) →
    ∀ b s, Has D S s → ∃ n r, formatFields F (format E F n) b s vs = some r ∧ Keeps s r := by
  intro vs
  induction vs with
  | nil => intro _ b s _; exact ⟨0, s, rfl, Keeps.of_eq rfl rfl⟩
  | cons nv vs ih =>
    obtain ⟨name, v⟩ := nv
    intro hv b s hs
    generalize hs1 : (if F.plus = true ∨ F.sharp = true then (gap b s).write (name ++ asc ":") else gap b s) = s1
    have hk0 : Keeps s s1 := by
      rw [← hs1]
      split
      · exact (keeps_gap b s).trans (Keeps.of_eq rfl rfl)
      · exact keeps_gap b s
    have hk1 := hk0.trans (keeps_behind s1 v)
    obtain ⟨n, r, hr, hk⟩ := hv (name, v) (by simp) _ (hs.keeps hk1)
    have hk2 := hk1.trans hk
    obtain ⟨m, t, ht, hk'⟩ := ih (fun u hu => hv u (by simp [hu])) false _ (hs.keeps hk2)
    refine ⟨max n m, t, ?_, hk2.trans hk'⟩
    simp only [formatFields, Option.bind_eq_some_iff]
    rw [hs1]
    exact ⟨r, format_mono' (Nat.le_max_left _ _) _ _ _ hr, formatFields_ext (format_mono' (Nat.le_max_right _ _)) _ _ _ _ ht⟩

theorem formatBlock_ends {E : Env} {D S} {o cl : Bytes} {body : Nat → St → Option St}
    (h : Within E (D + 1) → ∀ s, Has (D + 1) S s → ∃ n r, body n s = some r ∧ Keeps s r)
    {s : St} (hd : s.depth = D) (hS : ∀ a ∈ S, ∃ d ≤ D, s.ptrs a = some d) :
    ∃ n r, formatBlock E o cl (body n) s = some r ∧ Keeps s r := by
  by_cases hm : E.maxDepth ≠ 0 ∧ ((D + 1 : Nat) : Int) > E.maxDepth
  · refine ⟨0, ?_⟩
    simp only [formatBlock]
    rw [if_pos (by simpa [St.write, hd] using hm)]
    exact ⟨_, rfl, Keeps.of_eq (by simp [St.write]) (by simp [St.write])⟩
  · have hw : Within E (D + 1) := by
      unfold Within
      by_cases h0 : E.maxDepth = 0
      · exact .inl h0
      · exact .inr (by by_contra hc; exact hm ⟨h0, by omega⟩)
    obtain ⟨n, r, hr, hk⟩ := h hw { s.write o with depth := s.depth + 1 } ⟨by simp [hd], fun a ha => by
      obtain ⟨d, h1, h2⟩ := hS a ha
      exact ⟨d, by omega, h2⟩⟩
    refine ⟨n, ?_⟩
    simp only [formatBlock]
    rw [if_neg (by simpa [St.write, hd] using hm)]
    have : ({ s.write o with depth := (s.write o).depth + 1 } : St) = { s.write o with depth := s.depth + 1 } := rfl
    rw [this, hr]
    refine ⟨_, rfl, ?_, fun a d h1 h2 => ?_⟩
    · have := hk.1
      simp only [St.write] at this ⊢
      omega
    · exact hk.2 a d (by simp only []; omega) h2

/-- A value that is no pointer ends when its parts do. -/
theorem formatRest_ends {E : Env} {F : Flags} {D S v} (h : Within E (D + 1) → ∀ p ∈ parts E v, FEndsAt E F (D + 1) S p)
    {s : St} (hd : s.depth = D) (hS : ∀ a ∈ S, ∃ d ≤ D, s.ptrs a = some d) :
    ∃ n r, formatRest E F (format E F n) s v = some r ∧ Keeps s r := by
  simp only [formatRest]
  generalize hs' : ({ (if s.noType = false ∧ F.sharp = true then s.write (asc "(" ++ typeName v ++ asc ")") else s) with
    noType := false } : St) = s1
  have e1 : s1.depth = s.depth := by rw [← hs']; split <;> simp [St.write]
  have e2 : s1.ptrs = s.ptrs := by rw [← hs']; split <;> simp [St.write]
  by_cases hm : (methText E v).2 = true
  · exact ⟨0, s1.write (methText E v).1, by rw [if_pos hm], Keeps.of_eq e1 e2⟩
  · simp only [hm, if_false, Bool.false_eq_true]
    generalize hs2 : s1.write (methText E v).1 = s2
    have f1 : s2.depth = D := by rw [← hs2]; exact e1.trans hd
    have f2 : s2.ptrs = s.ptrs := by rw [← hs2]; exact e2
    have key : ∃ n r, formatKind E F (format E F n) s2 v = some r ∧ Keeps s2 r := by
      have hS2 : ∀ a ∈ S, ∃ d ≤ D, s2.ptrs a = some d := by rw [f2]; exact hS
      cases v with
      | slice ty a cap =>
        simp only [formatKind]
        by_cases h0 : a = 0
        · exact ⟨0, s2.write (asc "<nil>"), by rw [if_pos h0], Keeps.of_eq rfl rfl⟩
        · simp only [h0, if_false]
          refine formatBlock_ends (body := fun n s => formatElems (format E F n) true s (E.elems a)) (fun hw => ?_) f1 hS2
          refine formatElems_end _ (fun v hv => h hw _ ?_) true
          simp only [parts, h0, if_false, List.mem_map]
          exact ⟨v, hv, rfl⟩
      | array ty vs =>
        refine formatBlock_ends (body := fun n s => formatElems (format E F n) true s vs) (fun hw => ?_) f1 hS2
        refine formatElems_end _ (fun v hv => h hw _ ?_) true
        simp only [parts, List.mem_map]
        exact ⟨v, hv, rfl⟩
      | map ty a =>
        simp only [formatKind]
        by_cases h0 : a = 0
        · exact ⟨0, s2.write (asc "<nil>"), by rw [if_pos h0], Keeps.of_eq rfl rfl⟩
        · simp only [h0, if_false]
          refine formatBlock_ends (body := fun n s => formatEntries (format E F n) true s (E.entries a)) (fun hw => ?_) f1 hS2
          refine formatEntries_end _ (fun v hv => ⟨h hw _ ?_, h hw _ ?_⟩) true <;>
          · simp only [parts, h0, if_false, List.mem_flatMap]
            exact ⟨v, hv, by simp⟩
      | struct ty fs =>
        refine formatBlock_ends (body := fun n s => formatFields F (format E F n) true s fs) (fun hw => ?_) f1 hS2
        refine formatFields_end _ (fun v hv => h hw _ ?_) true
        simp only [parts, List.mem_map]
        exact ⟨v, hv, rfl⟩
      | blob ty isNil b cap =>
        simp only [formatKind]
        by_cases h0 : isNil = true
        · exact ⟨0, s2.write (asc "<nil>"), by rw [if_pos h0], Keeps.of_eq rfl rfl⟩
        · simp only [h0, if_false, Bool.false_eq_true]
          refine formatBlock_ends (S := S) (body := fun _ s => some (s.write (byteTexts true b))) (fun _ s _ => ?_) f1 hS2
          exact ⟨0, _, rfl, Keeps.of_eq rfl rfl⟩
      | _ => exact ⟨0, _, rfl, Keeps.of_eq rfl rfl⟩
    obtain ⟨n, r, hr, hk⟩ := key
    exact ⟨n, r, hr, (Keeps.of_eq (f1.trans hd.symm) f2).trans hk⟩

theorem formatNonptr_ends {E : Env} {F : Flags} {D S v} (hp : ¬IsPtr v) (h : Within E (D + 1) → ∀ p ∈ parts E v, FEndsAt E F (D + 1) S p)
    {s : St} (hd : s.depth = D) (hS : ∀ a ∈ S, ∃ d ≤ D, s.ptrs a = some d) :
    ∃ n r, format E F n s v = some r ∧ Keeps s r := by
  by_cases hi : v = .invalid
  · subst hi
    exact ⟨1, _, rfl, Keeps.of_eq rfl rfl⟩
  · obtain ⟨n, r, hr, hk⟩ := formatRest_ends h hd hS
    exact ⟨n + 1, r, by rw [format_of_not_ptr hp hi]; exact hr, hk⟩

/-- A pointer ends when the parts of what it leads to end, with the pointer itself counted as shown. -/
theorem formatPtr_ends {E : Env} {F : Flags} {D S ty a} (hc : Acc (Target E) (.ptr ty a))
    (h : a ∉ S → ∀ w, Reach E (.ptr ty a) w → ¬IsPtr w → Within E (D + 1) → ∀ p ∈ parts E w, FEndsAt E F (D + 1) (insert a S) p) :
    FEndsAt E F D S (.ptr ty a) := by
  intro s hs
  by_cases h0 : a = 0 ∧ (F.sharp = false ∨ s.noType = true)
  · exact ⟨1, s.write (asc "<nil>"), by simp only [format, formatPtr]; rw [if_pos h0], Keeps.of_eq rfl rfl⟩
  obtain ⟨n, c, hc1, hc2, hc3⟩ := chase_ends (D := s.depth) hc (prune s.depth s.ptrs) [] 0
  have hkeep : ∀ b d, d < s.depth → s.ptrs b = some d → c.ptrs b = some d := by
    intro b d h1 h2
    exact hc2 b d (by omega) (prune_some.2 ⟨h2, h1⟩)
  have hform : ∃ s2 : St, s2.depth = s.depth ∧ s2.ptrs = c.ptrs ∧ ∀ k, n ≤ k → format E F (k + 1) s (.ptr ty a) =
      match c.stop with
      | .nil => some (s2.write (asc "<nil>"))
      | .cycle => some (s2.write (asc "<shown>"))
      | .value => format E F k { s2 with noType := true } c.last := by
    let s1 := if F.sharp = true ∧ s.noType = false then
        ({ s with ptrs := c.ptrs } : St).write (asc "(" ++ rep (asc "*") c.indirects ++ typeName c.last ++ asc ")")
      else ({ s with ptrs := c.ptrs } : St).write
        (asc "<" ++ rep (asc "*") (if c.stop = .value then c.indirects else c.indirects + starCount (typeName c.last)) ++ asc ">")
    let s2 := if F.plus = true ∧ c.chain ≠ [] then s1.write (asc "(" ++ chainText c.chain ++ asc ")") else s1
    refine ⟨s2, ?_, ?_, fun k hk => ?_⟩
    · simp only [s2, s1]; split <;> split <;> simp [St.write]
    · simp only [s2, s1]; split <;> split <;> simp [St.write]
    · have hc1' := chase_mono hc1 (k - n)
      rw [show n + (k - n) = k by omega] at hc1'
      simp only [format, formatPtr, hc1']
      rw [if_neg h0]
      rfl
  obtain ⟨s2, e1, e2, e3⟩ := hform
  cases hst : c.stop with
  | nil =>
    have e3 := e3 n (Nat.le_refl _)
    rw [hst] at e3
    exact ⟨n + 1, _, e3, e1, fun b d h1 h2 => by simpa [St.write, e2] using hkeep b d h1 h2⟩
  | cycle =>
    have e3 := e3 n (Nat.le_refl _)
    rw [hst] at e3
    exact ⟨n + 1, _, e3, e1, fun b d h1 h2 => by simpa [St.write, e2] using hkeep b d h1 h2⟩
  | value =>
    obtain ⟨hl1, hl2, hl3⟩ := hc3 hst
    obtain ⟨ha1, ha2⟩ := hl3 ty a rfl
    rw [hs.1] at ha1 ha2
    have haS : a ∉ S := by
      intro haS
      obtain ⟨d, hd, hsa⟩ := hs.2 a haS
      have := (prune_some (D := D)).2 ⟨hsa, hd⟩
      unfold shownAbove at ha2
      rw [this] at ha2
      simp only [decide_eq_false_iff_not] at ha2
      omega
    obtain ⟨m, r, hr, hk⟩ := formatNonptr_ends (E := E) (F := F) (D := D) (S := insert a S) hl1 (fun hw => h haS _ hl2 hl1 hw)
      (s := { s2 with noType := true }) (e1.trans hs.1) (by
        intro b hb
        simp only [e2]
        rcases Finset.mem_insert.1 hb with rfl | hb
        · exact ⟨D, Nat.le_refl _, ha1⟩
        · obtain ⟨d, hd, hsb⟩ := hs.2 b hb
          exact ⟨d, by omega, hkeep b d (by rw [hs.1]; exact hd) hsb⟩)
    have e3 := e3 (max n m) (Nat.le_max_left _ _)
    rw [hst] at e3
    simp only at e3
    rw [format_mono' (Nat.le_max_right n m) _ _ _ hr] at e3
    refine ⟨max n m + 1, r, e3, hk.1.trans e1, fun b d h1 h2 => ?_⟩
    exact hk.2 b d (by simp only [e1]; exact h1) (by simp only [e2]; exact hkeep b d h1 h2)

theorem tame_fends_at {E : Env} {F : Flags} {v : Val} (h1 : ∀ w, Reach E v w → Acc (Part E) w)
    (h2 : ∀ w, Reach E v w → Acc (Target E) w) (A : Finset Nat) (h3 : ∀ ty a, Reach E v (.ptr ty a) → a ∈ A) :
    ∀ k (w : Val), Acc (Part E) w → Reach E v w → ∀ D S, (A \ S).card ≤ k → FEndsAt E F D S w := by
  intro k
  induction k using Nat.strongRecOn with
  | ind k ihk =>
    intro w hw
    induction hw with
    | intro w _ ih =>
      intro hr D S hk
      by_cases hp : IsPtr w
      · cases w with
        | ptr ty a =>
          refine formatPtr_ends (h2 _ hr) fun haS u hu _ _ p hpp => ?_
          have hru : Reach E v p := .part (hr.trans hu) hpp
          have hlt : (A \ insert a S).card < (A \ S).card := by
            apply Finset.card_lt_card
            rw [Finset.ssubset_iff_of_subset (Finset.sdiff_subset_sdiff (Finset.Subset.refl _) (Finset.subset_insert _ _))]
            exact ⟨a, Finset.mem_sdiff.2 ⟨h3 ty a hr, haS⟩, by simp⟩
          exact ihk (A \ insert a S).card (by omega) p (h1 p hru) hru (D + 1) (insert a S) (Nat.le_refl _)
        | _ => exact absurd hp (by simp [IsPtr])
      · intro s hs
        refine formatNonptr_ends hp (fun _ p hpp => ih p hpp (.part hr hpp) (D + 1) S hk) hs.1 fun a ha => ?_
        obtain ⟨d, hd, hsa⟩ := hs.2 a ha
        exact ⟨d, by omega, hsa⟩

/-- **C115, where it holds**: the formatter ends on every value, however its parts are shared and however it
contains itself, as long as every circle goes through a pointer and through something that is no
pointer.  What is missing: circles of pointers alone, and circles through maps and slices without a
pointer (`format_pointer_circle_hangs`, `format_slice_circle_hangs`). -/
theorem format_ends_partial {E : Env} {v : Val} (F : Flags) (h : Tame E v) : ∃ n out, formatV E F n (some v) = some out := by
  obtain ⟨A, hA⟩ := h.finite
  obtain ⟨n, r, hr, -⟩ := tame_fends_at (F := F) h.parts h.chains A hA (A \ ∅).card v (h.parts v .refl) .refl 0 ∅ (Nat.le_refl _)
    St.init ⟨rfl, by simp⟩
  exact ⟨n, r.out, by simp [formatV, hr]⟩

/-- **C115**: with a `MaxDepth` it also ends on circles through maps and slices. -/
theorem format_ends_with_max_depth_partial {E : Env} {v : Val} (F : Flags) (hm : E.maxDepth ≠ 0)
    (h : ∀ w, Reach E v w → Acc (Target E) w) : ∃ n out, formatV E F n (some v) = some out := by
  have key : ∀ (k D : Nat), (E.maxDepth - D).toNat ≤ k → ∀ w, Reach E v w → FEndsAt E F D ∅ w := by
    intro k
    induction k with
    | zero =>
      intro D hD w hr
      have hno : ¬Within E (D + 1) := by
        unfold Within
        rintro (h0 | h0)
        · exact hm h0
        · omega
      by_cases hp : IsPtr w
      · cases w with
        | ptr ty a => exact formatPtr_ends (h _ hr) fun _ _ _ _ hw => absurd hw hno
        | _ => exact absurd hp (by simp [IsPtr])
      · exact fun s hs => formatNonptr_ends (S := ∅) hp (fun hw => absurd hw hno) hs.1 (by simp)
    | succ k ih =>
      intro D hD w hr
      by_cases hp : IsPtr w
      · cases w with
        | ptr ty a =>
          refine formatPtr_ends (h _ hr) fun _ u hu _ hw p hpp s hs => ?_
          exact ih (D + 1) (by unfold Within at hw; omega) p (.part (hr.trans hu) hpp) s ⟨hs.1, by simp⟩
        | _ => exact absurd hp (by simp [IsPtr])
      · refine fun s hs => formatNonptr_ends (S := ∅) hp (fun hw p hpp => ?_) hs.1 (by simp)
        exact ih (D + 1) (by unfold Within at hw; omega) p (.part hr hpp)
  obtain ⟨n, r, hr, -⟩ := key _ 0 (Nat.le_refl _) v .refl St.init ⟨rfl, by simp⟩
  exact ⟨n, r.out, by simp [formatV, hr]⟩

/-! ## Where it hangs -/

/-- **C115 fails**: a pointer that leads back to itself without anything in between is followed for ever:
`var x interface{}; x = &x; spew.Printf("%v", x)`. -/
theorem format_pointer_circle_hangs {E : Env} {ty : Bytes} {a : Nat} (F : Flags) (ha : a ≠ 0) (h : unpack (E.at_ a) = .ptr ty a) (n : Nat) :
    formatV E F n (some (.ptr ty a)) = none := by
  simp only [formatV, Option.map_eq_none_iff]
  cases n with
  | zero => rfl
  | succ n =>
    simp only [format, formatPtr, ha, false_and, if_false]
    rw [show chase E St.init.depth n _ [] 0 (.ptr ty a) = none from chase_circle ha h n _ _ _]

/-- **C115 fails**: a slice that contains itself is formatted for ever unless a `MaxDepth` is set or a method
takes over. -/
theorem format_slice_circle_hangs {E : Env} {ty : Bytes} {a cap : Nat} {x : Val} (F : Flags) (hm : E.maxDepth = 0) (ha : a ≠ 0)
    (hmeth : (methText E (.slice ty a cap)).2 = false) (hx : x ∈ E.elems a) (h : unpack x = .slice ty a cap) (n : Nat) :
    formatV E F n (some (.slice ty a cap)) = none := by
  have hel : ∀ f : St → Val → Option St, (∀ s, f s (unpack x) = none) → ∀ vs b s, x ∈ vs → formatElems f b s vs = none := by
    intro f hf vs
    induction vs with
    | nil => intro b s h; cases h
    | cons v vs ih =>
      intro b s h
      simp only [formatElems, Option.bind_eq_none_iff]
      rcases List.mem_cons.1 h with rfl | h
      · intro r hr; rw [formatBare, hf] at hr; cases hr
      · intro r _; exact ih _ _ h
  have key : ∀ n s, format E F n s (.slice ty a cap) = none := by
    intro n
    induction n with
    | zero => intro s; rfl
    | succ n ih =>
      intro s
      simp only [format, formatRest, hmeth, formatKind, ha, if_false, formatBlock, Option.map_eq_none_iff, hm, ne_eq,
        not_true_eq_false, false_and, Bool.false_eq_true]
      exact hel _ (by rw [h]; exact ih) _ _ _ hx
  simp [formatV, key]

/-! ## Where a type is lost -/

/-- `struct{A []*int; B int}{A: []*int{nil}, B: 5}`. -/
def lossy : Val := .struct (asc "main.T") [(asc "A", .slice (asc "[]*int") 1 1), (asc "B", .num (asc "int") (asc "5"))]

/-- The world of `lossy`. -/
def lossyEnv : Env := Env.sample (fun _ => .invalid) (fun _ => [.ptr (asc "*int") 0]) (fun _ => [])

/-- **C114 fails** under `%#v`: the flag that hides the type of a slice element stays set behind a nil
pointer, and the next field loses its type: `B:5` instead of `B:(int)5`. -/
theorem type_lost :
    formatV lossyEnv ⟨false, true⟩ 9 (some lossy) = some (asc "(main.T){A:([]*int)[<nil>] B:5}") ∧
    ∀ out K, Shows lossyEnv ⟨false, true⟩ 0 false [] lossy out K → out = asc "(main.T){A:([]*int)[<nil>] B:(int)5}" := by
  refine ⟨by decide +kernel, fun out K h => ?_⟩
  unfold lossy at h
  cases h with
  | handled _ _ h => exact absurd h (by decide)
  | simple _ h => cases h
  | deep _ _ h => exact absurd rfl h.1
  | group _ hb _ h =>
    cases hb
    cases h with
    | struct h =>
      cases h with
      | cons h1 h =>
        cases h with
        | cons h2 h =>
          cases h
          cases h2 with
          | handled _ _ h => exact absurd h (by decide)
          | deep _ h => cases h
          | group _ h => cases h
          | simple _ h =>
            cases h
            cases h1 with
            | handled _ _ h => exact absurd h (by decide)
            | deep _ _ h => exact absurd rfl h.1
            | simple _ h => cases h
            | group _ hb _ h =>
              cases hb
              cases h with
              | slice h =>
                have h : ShowsElems lossyEnv ⟨false, true⟩ 2 [] [.ptr (asc "*int") 0] _ _ := h
                cases h with
                | cons h1 h =>
                  cases h
                  have h1 : Shows lossyEnv ⟨false, true⟩ 2 true [] (.ptr (asc "*int") 0) _ _ := h1
                  cases h1 with
                  | handled hh => exact absurd trivial hh
                  | simple _ hh => cases hh
                  | deep _ hh => cases hh
                  | group _ hh => cases hh
                  | bareNil _ => decide +kernel
                  | ptrNil hh => exact absurd ⟨rfl, .inr rfl⟩ hh
                  | ptrShown hh h0 =>
                    cases hh with
                    | here => exact absurd rfl h0
                    | step hh => exact absurd rfl hh
                  | ptr hh hp =>
                    cases hh with
                    | here => exact absurd trivial hp
                    | step hh => exact absurd rfl hh

/-! ## Concrete cases -/

/-- The ring, once round, in the four forms. -/
example : formatV ring ⟨false, false⟩ 9 (some (.ptr (asc "*main.Node") 1)) = some (asc "<*>{<*>{<*><shown>}}") := by decide +kernel
example : formatV ring ⟨true, false⟩ 9 (some (.ptr (asc "*main.Node") 1)) =
    some (asc "<*>(0x1){Next:<*>(0x2){Next:<*>(0x1)<shown>}}") := by decide +kernel
example : formatV ring ⟨false, true⟩ 9 (some (.ptr (asc "*main.Node") 1)) =
    some (asc "(*main.Node){Next:(*main.Node){Next:(*main.Node)<shown>}}") := by decide +kernel
example (F : Flags) : ∃ n out, formatV ring F n (some (.ptr (asc "*main.Node") 1)) = some out := format_ends_partial F ring_tame

/-- The ring meets the condition for `%#v`. -/
theorem ring_plain : NoPtrItems ring (.ptr (asc "*main.Node") 1) := by
  intro w hw
  obtain ⟨a, -, rfl | rfl⟩ := ring_reach hw
  · exact ⟨(nomatch ·), fun x hx => by simp [items] at hx⟩
  · exact ⟨(nomatch ·), fun x hx => by simp [items] at hx⟩

example : ∃ K, Shows ring ⟨false, true⟩ 0 false [] (.ptr (asc "*main.Node") 1)
    (asc "(*main.Node){Next:(*main.Node){Next:(*main.Node)<shown>}}") K :=
  format_shows_partial (n := 9) (by decide +kernel) fun _ => ring_plain

/-- A map with a slice, an empty struct, bytes, an interface holding a number and a nil interface. -/
example : formatV (Env.sample (fun _ => .invalid) (fun _ => [.iface (asc "interface {}") (.num (asc "int") (asc "1")), .nilIface (asc "interface {}")])
    (fun _ => [(.str (asc "string") (asc "a"), .iface (asc "interface {}") (.slice (asc "[]interface {}") 1 2)),
      (.str (asc "string") (asc "b"), .iface (asc "interface {}") (.struct (asc "struct {}") [])),
      (.str (asc "string") (asc "c"), .iface (asc "interface {}") (.blob (asc "[]uint8") false [7, 255] 2))])) ⟨false, true⟩ 9
    (some (.map (asc "map[string]interface {}") 1)) =
    some (asc "(map[string]interface {})map[a:([]interface {})[(int)1 (interface {})<nil>] b:(struct {}){} c:([]uint8)[7 255]]") := by
  decide +kernel

/-- `var x interface{}; x = &x`. -/
example (F : Flags) (n : Nat) : formatV (Env.sample (fun _ => .iface (asc "interface {}") (.ptr (asc "*interface {}") 1)) (fun _ => []) (fun _ => [])) F n
    (some (.ptr (asc "*interface {}") 1)) = none := format_pointer_circle_hangs F (by decide) rfl n

/-- `s := []interface{}{1, nil}; s[1] = s`. -/
example (F : Flags) (n : Nat) : formatV (Env.sample (fun _ => .invalid)
    (fun _ => [.iface (asc "interface {}") (.num (asc "int") (asc "1")), .iface (asc "interface {}") (.slice (asc "[]interface {}") 1 2)]) (fun _ => [])) F n
    (some (.slice (asc "[]interface {}") 1 2)) = none :=
  format_slice_circle_hangs (x := .iface (asc "interface {}") (.slice (asc "[]interface {}") 1 2)) F rfl (by decide) rfl
    (by simp [Env.sample]) rfl n

/-- The same slice with `MaxDepth: 2`. -/
example : formatV { Env.sample (fun _ => .invalid)
    (fun _ => [.iface (asc "interface {}") (.slice (asc "[]interface {}") 1 1)]) (fun _ => []) with maxDepth := 2 } ⟨false, false⟩ 9
    (some (.slice (asc "[]interface {}") 1 1)) = some (asc "[[[<max>]]]") := by
  decide +kernel

end Verif.Spew
