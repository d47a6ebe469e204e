import Verif.Jsonfmt.ValLemmas

/-!
# C17, C18: nested values and struct fields
-/

namespace Verif.Jsonfmt
open Verif.Spec

theorem tagName_eq (tag : Bytes) : tag.takeWhile (· != 44) = tagName tag := by
  unfold tagName
  congr 1
  funext c
  by_cases h : c = 44 <;> simp [h]

/-- For names starting with an ASCII byte `getFieldName` finds exactly the visible
fields. -/
theorem getFieldName_eq (name tag : Bytes) (ty : Ty) (hn : ∃ c r, name = c :: r ∧ c < 128) :
    getFieldName false name tag ty = (visibleName name tag ty).getD [] ∧
    (visibleName name tag ty ≠ some []) := by
  obtain ⟨c, r, rfl, hc⟩ := hn
  have hexp : exported (c :: r) = some (isUpperLatin1 c) := by
    have tab : ∀ i : Fin 256, UInt8.ofNat i.val < 128 →
        isUpperLatin1 (UInt8.ofNat i.val) =
          (decide (65 ≤ UInt8.ofNat i.val) && decide (UInt8.ofNat i.val ≤ 90)) := by
      decide +kernel
    have t := tab ⟨c.toNat, c.toNat_lt⟩
    simp only [UInt8.ofNat_toNat] at t
    rw [t hc]
    cases r <;> simp [exported, hc]
  have hpart : getFieldName false (c :: r) tag ty =
      if isUpperLatin1 c = false ∨ isFuncOrChan ty = true then []
      else if tagName tag = [45] then []
      else if tagName tag = [] then c :: r else tagName tag := by
    unfold getFieldName
    rw [tagName_eq]
    simp only [List.headD_cons, Bool.not_false, Bool.true_and]
    cases hu : isUpperLatin1 c
    · simp
    · cases ht : isFuncOrChan ty
      · by_cases htag : tag = []
        · subst htag
          cases ty <;> simp_all [isFuncOrChan, tagName]
        · cases ty <;> simp_all [isFuncOrChan]
      · cases ty <;> simp_all [isFuncOrChan]
  rw [hpart]
  unfold visibleName
  rw [hexp]
  cases isUpperLatin1 c <;> cases isFuncOrChan ty <;> by_cases h1 : tagName tag = [45] <;>
    by_cases h2 : tagName tag = [] <;> simp_all

theorem encoderOf_map (cfg : Bool) (pfx : Bytes) (k v : Ty) :
    encoderOf cfg pfx (.map k v) =
      .map (encoderOfMapKey cfg pfx k) (encoderOf cfg (pfx ++ asc " [mapElem]") v) := by
  cases k <;> simp [encoderOf, encoderOfMapKey]

theorem encodePairs_nil (ke : KeyEnc) (ee : Enc) (first : Bool) (space : Bytes) :
    encodePairs .nil ke ee first space = space := rfl

theorem encodePairs_number (k v : Val) (ps : Pairs) (e ee : Enc) (first : Bool) (space : Bytes) :
    encodePairs (.cons k v ps) (.number e) ee first space =
      encodePairs ps (.number e) ee false
        (encode v ee (encode k e ((if first then space else space ++ [44]) ++ [34]) ++ [34, 58])) := rfl

theorem encodePairs_string (k v : Val) (ps : Pairs) (e ee : Enc) (first : Bool) (space : Bytes) :
    encodePairs (.cons k v ps) (.string e) ee first space =
      encodePairs ps (.string e) ee false
        (encode v ee (encode k e (if first then space else space ++ [44]) ++ [58])) := rfl

theorem encodePairs_iface (t : Ty) (k v : Val) (ps : Pairs) (cfg : Bool) (pfx : Bytes) (ee : Enc)
    (first : Bool) (space : Bytes) :
    encodePairs (.cons (.iface t k) v ps) (.iface cfg pfx) ee first space =
      encodePairs ps (.iface cfg pfx) ee false (encode v ee
        (match encoderOfMapKey cfg pfx t with
          | .number e => encode k e ((if first then space else space ++ [44]) ++ [34]) ++ [34, 58]
          | .string e => encode k e (if first then space else space ++ [44]) ++ [58]
          | .iface _ _ => if first then space else space ++ [44])) := rfl

/-- The text of array elements with its closing bracket. -/
def ElemsRead (x : Bytes) (js : List Json) : Prop :=
  (∃ c r, x = c :: r ∧ c ≠ 93) ∧
  ∀ f rest, 2 * x.length + 1 ≤ f → parseElems f (x ++ 93 :: rest) = some (js, rest)

/-- The text of object members with its closing brace. -/
def MembersRead (x : Bytes) (kvs : List (Bytes × Json)) : Prop :=
  (∃ r, x = 34 :: r) ∧
  ∀ f rest, 2 * x.length + 1 ≤ f → parseMembers f (x ++ 125 :: rest) = some (kvs, rest)

theorem ne93 : NumEnd (93 :: rest) := numEnd_cons 93 rest (by decide) (by decide)
theorem ne44 : NumEnd (44 :: rest) := numEnd_cons 44 rest (by decide) (by decide)
theorem ne125 : NumEnd (125 :: rest) := numEnd_cons 125 rest (by decide) (by decide)

theorem elems_one (x : Bytes) (j : Json) (h : Reads x j) : ElemsRead x [j] := by
  refine ⟨h.1, ?_⟩
  intro f rest hf
  obtain ⟨f', rfl⟩ : ∃ f', f = f' + 1 := ⟨f - 1, by omega⟩
  rw [parseElems, h.2 f' _ (by omega) ne93]
  rfl

theorem elems_more (x y : Bytes) (j : Json) (js : List Json) (h : Reads x j)
    (hy : ElemsRead y js) : ElemsRead (x ++ 44 :: y) (j :: js) := by
  obtain ⟨⟨c, r, hx, hc⟩, hr⟩ := h
  refine ⟨⟨c, r ++ 44 :: y, by rw [hx]; rfl, hc⟩, ?_⟩
  intro f rest hf
  simp only [List.length_append, List.length_cons] at hf
  obtain ⟨f', rfl⟩ : ∃ f', f = f' + 1 := ⟨f - 1, by omega⟩
  rw [List.append_assoc, List.cons_append, parseElems, hr f' _ (by omega) ne44]
  simp only
  rw [hy.2 f' rest (by omega)]

theorem arr_reads (x : Bytes) (js : List Json) (h : ElemsRead x js) :
    Reads (91 :: x ++ [93]) (.arr js) := by
  refine ⟨⟨91, x ++ [93], rfl, by decide⟩, ?_⟩
  intro f rest hf _
  simp only [List.length_append, List.length_cons] at hf
  obtain ⟨f', rfl⟩ : ∃ f', f = f' + 1 := ⟨f - 1, by omega⟩
  have he := h.2 f' rest (by omega)
  obtain ⟨c, r, rfl, hc⟩ := h.1
  simp only [List.cons_append, List.append_assoc, List.nil_append] at he ⊢
  rw [parseValue.eq_def]
  simp only
  split <;> simp_all

theorem arr_nil_reads : Reads [91, 93] (.arr []) := by
  refine ⟨⟨91, _, rfl, by decide⟩, ?_⟩
  intro f rest hf _
  simp only [List.length_cons] at hf
  obtain ⟨f', rfl⟩ : ∃ f', f = f' + 1 := ⟨f - 1, by omega⟩
  simp [parseValue]

theorem members_one (kx x kb : Bytes) (j : Json) (hk : KeyReads kx kb) (h : Reads x j) :
    MembersRead (kx ++ 58 :: x) [(kb, j)] := by
  have hk34 : ∃ r, kx = 34 :: r := by
    have := hk []
    cases kx with
    | nil => simp [parseJsonString] at this
    | cons c r =>
      rw [List.cons_append, parseJsonString.eq_def] at this
      split at this
      · rename_i heq; simp only [List.cons.injEq] at heq; exact ⟨r, by rw [heq.1]⟩
      · simp at this
  obtain ⟨r, hr⟩ := hk34
  refine ⟨⟨r ++ 58 :: x, by rw [hr]; rfl⟩, ?_⟩
  intro f rest hf
  simp only [List.length_append, List.length_cons] at hf
  obtain ⟨f', rfl⟩ : ∃ f', f = f' + 1 := ⟨f - 1, by omega⟩
  rw [List.append_assoc, List.cons_append, parseMembers, hk]
  simp only
  rw [h.2 f' _ (by omega) ne125]
  rfl

theorem members_more (kx x kb y : Bytes) (j : Json) (kvs : List (Bytes × Json))
    (hk : KeyReads kx kb) (h : Reads x j) (hy : MembersRead y kvs) :
    MembersRead (kx ++ 58 :: x ++ 44 :: y) ((kb, j) :: kvs) := by
  obtain ⟨r, hr⟩ := (members_one kx x kb j hk h).1
  refine ⟨⟨r ++ 44 :: y, by rw [hr]; rfl⟩, ?_⟩
  intro f rest hf
  simp only [List.length_append, List.length_cons] at hf
  obtain ⟨f', rfl⟩ : ∃ f', f = f' + 1 := ⟨f - 1, by omega⟩
  rw [List.append_assoc, List.append_assoc, List.cons_append, List.cons_append, parseMembers, hk]
  simp only
  rw [h.2 f' _ (by omega) ne44]
  simp only
  rw [hy.2 f' rest (by omega)]

theorem obj_reads (x : Bytes) (kvs : List (Bytes × Json)) (h : MembersRead x kvs) :
    Reads (123 :: x ++ [125]) (.obj kvs) := by
  refine ⟨⟨123, x ++ [125], rfl, by decide⟩, ?_⟩
  intro f rest hf _
  simp only [List.length_append, List.length_cons] at hf
  obtain ⟨f', rfl⟩ : ∃ f', f = f' + 1 := ⟨f - 1, by omega⟩
  have he := h.2 f' rest (by omega)
  obtain ⟨r, rfl⟩ := h.1
  simp only [List.cons_append, List.append_assoc, List.nil_append] at he ⊢
  simp [parseValue, he]

theorem obj_nil_reads : Reads [123, 125] (.obj []) := by
  refine ⟨⟨123, _, rfl, by decide⟩, ?_⟩
  intro f rest hf _
  simp only [List.length_cons] at hf
  obtain ⟨f', rfl⟩ : ∃ f', f = f' + 1 := ⟨f - 1, by omega⟩
  simp [parseValue]

theorem needs_plain (c : UInt8) (h : ¬ NeedsEscape c) : plain c = true := by
  cases hp : plain c with
  | true => rfl
  | false => exact absurd ((not_plain_iff c).mp hp) h

theorem fieldKey_reads (n : Bytes) (h : ∀ c ∈ n, ¬ NeedsEscape c) :
    KeyReads (34 :: n ++ [34]) n := by
  intro rest
  have := parseString_plain n (58 :: rest) (fun c hc => needs_plain c (h c hc))
  simpa using this

/-! What a text is read as does not depend on what follows. -/

theorem takeWhile_drop (s : Bytes) : s = (spanDigits s).1 ++ (spanDigits s).2 := by
  simp [spanDigits]

theorem span_fst_digits (s : Bytes) : ∀ c ∈ (spanDigits s).1, isDigit c = true := by
  intro c hc
  have := List.all_takeWhile (p := isDigit) (l := s)
  rw [List.all_eq_true] at this
  exact this c hc

theorem unsigned_local (s r : Bytes) (m e : Nat) (h : parseUnsigned s = some ((m, e), r)) :
    ∃ x, s = x ++ r ∧ (∃ c t, x = c :: t ∧ isDigit c = true) ∧
      ∀ rest, NumEnd rest → parseUnsigned (x ++ rest) = some ((m, e), rest) := by
  have hs := takeWhile_drop s
  have hd := span_fst_digits s
  unfold parseUnsigned at h
  generalize hip : (spanDigits s).1 = ip at hs hd h
  generalize htl : (spanDigits s).2 = tl at hs h
  simp only at h
  split at h
  · simp at h
  rename_i hc
  have hne : ip ≠ [] := fun h => hc (Or.inl h)
  obtain ⟨c, t, hct⟩ : ∃ c t, ip = c :: t := by
    cases ip with
    | nil => exact absurd rfl hne
    | cons c t => exact ⟨c, t, rfl⟩
  have hcd : isDigit c = true := hd c (by rw [hct]; simp)
  split at h
  · rename_i r'
    have hs' := takeWhile_drop r'
    have hd' := span_fst_digits r'
    generalize hfr : (spanDigits r').1 = fr at hs' hd' h
    generalize htl' : (spanDigits r').2 = tl' at hs' h
    split at h
    · simp at h
    rename_i hfne
    simp only [Option.some.injEq, Prod.mk.injEq] at h
    obtain ⟨⟨rfl, rfl⟩, rfl⟩ := h
    refine ⟨ip ++ 46 :: fr, by rw [hs, hs']; simp, ⟨c, t ++ 46 :: fr, by rw [hct]; rfl, hcd⟩, fun rest hr => ?_⟩
    unfold parseUnsigned
    rw [List.append_assoc, List.cons_append, span_digits ip (46 :: (fr ++ rest)) hd
      (fun c r h => by simp only [List.cons.injEq] at h; rw [← h.1]; decide)]
    simp only
    rw [if_neg hc, span_digits fr rest hd' (fun c r h => (hr c r h).1)]
    simp [hfne]
  · simp only [Option.some.injEq, Prod.mk.injEq] at h
    obtain ⟨⟨rfl, rfl⟩, rfl⟩ := h
    refine ⟨ip, hs, ⟨c, t, hct, hcd⟩, fun rest hr => ?_⟩
    unfold parseUnsigned
    rw [span_digits ip rest hd (fun c r h => (hr c r h).1)]
    simp only
    rw [if_neg hc]
    cases rest with
    | nil => rfl
    | cons c r =>
      have := (hr c r rfl).2
      split
      · rename_i heq; simp only [List.cons.injEq] at heq; exact absurd heq.1 this
      · rfl

theorem number_local (s r : Bytes) (j : Json) (h : parseNumber s = some (j, r)) :
    ∃ x, s = x ++ r ∧ (∃ c t, x = c :: t ∧ (isDigit c = true ∨ c = 45)) ∧
      ∀ rest, NumEnd rest → parseNumber (x ++ rest) = some (j, rest) := by
  rw [parseNumber.eq_def] at h
  split at h
  · rename_i s
    cases hu : parseUnsigned s with
    | none => simp [hu] at h
    | some p =>
      obtain ⟨⟨m, e⟩, r'⟩ := p
      simp only [hu, Option.some.injEq, Prod.mk.injEq] at h
      obtain ⟨rfl, rfl⟩ := h
      obtain ⟨x, hx, -, hl⟩ := unsigned_local s r' m e hu
      refine ⟨45 :: x, by rw [hx]; rfl, ⟨45, x, rfl, Or.inr rfl⟩, fun rest hr => ?_⟩
      rw [List.cons_append, parseNumber, hl rest hr]
  · cases hu : parseUnsigned s with
    | none => simp [hu] at h
    | some p =>
      obtain ⟨⟨m, e⟩, r'⟩ := p
      simp only [hu, Option.some.injEq, Prod.mk.injEq] at h
      obtain ⟨rfl, rfl⟩ := h
      obtain ⟨x, hx, ⟨c, t, rfl, hc⟩, hl⟩ := unsigned_local s r' m e hu
      refine ⟨c :: t, hx, ⟨c, t, rfl, Or.inl hc⟩, fun rest hr => ?_⟩
      have := hl rest hr
      rw [List.cons_append] at this ⊢
      rw [parseNumber_pos c _ (isDigit_ne45 c hc), this]

theorem body_local (s : Bytes) : ∀ v r, parseStringBody s = some (v, r) →
    ∃ x, s = x ++ r ∧ ∀ rest, parseStringBody (x ++ rest) = some (v, rest) := by
  fun_induction parseStringBody s with
  | case1 => intro v r h; simp at h
  | case2 r' =>
    intro v r h
    simp only [Option.some.injEq, Prod.mk.injEq] at h
    obtain ⟨rfl, rfl⟩ := h
    exact ⟨[34], rfl, fun rest => by simp [parseStringBody]⟩
  | case3 => intro v r h; simp at h
  | case4 => intro v r h; simp at h
  | case5 a b c d s n h4 hs v' r' hb ih =>
    intro v r h
    simp only [Option.some.injEq, Prod.mk.injEq] at h
    obtain ⟨rfl, rfl⟩ := h
    obtain ⟨x, hx, hl⟩ := ih _ _ hb
    exact ⟨92 :: 117 :: a :: b :: c :: d :: x, by rw [hx]; rfl, fun rest => by simp [parseStringBody, h4, hs, hl rest]⟩
  | case6 => intro v r h; simp at h
  | case7 => intro v r h; simp at h
  | case8 => intro v r h; simp at h
  | case9 e s hn y hy v' r' hb ih =>
    intro v r h
    simp only [Option.some.injEq, Prod.mk.injEq] at h
    obtain ⟨rfl, rfl⟩ := h
    obtain ⟨x, hx, hl⟩ := ih _ _ hb
    have he : e ≠ 117 := by intro he; subst he; simp [simpleEscape] at hy
    refine ⟨92 :: e :: x, by rw [hx]; rfl, fun rest => ?_⟩
    simp only [List.cons_append]
    rw [parseStringBody.eq_def]
    split
    · simp_all
    · simp_all
    · simp_all
    · rename_i heq
      simp only [List.cons.injEq, true_and] at heq
      obtain ⟨rfl, rfl⟩ := heq
      simp only [hy, hl rest]
    · rename_i h92 heq
      simp only [List.cons.injEq] at heq
      obtain ⟨rfl, rfl⟩ := heq
      exact (h92 _ _ rfl rfl).elim
  | case10 => intro v r h; simp at h
  | case11 => intro v r h; simp at h
  | case12 c s h1 h2 h3 hc v' r' hb ih =>
    intro v r h
    simp only [Option.some.injEq, Prod.mk.injEq] at h
    obtain ⟨rfl, rfl⟩ := h
    obtain ⟨x, hx, hl⟩ := ih _ _ hb
    refine ⟨c :: x, by rw [hx]; rfl, fun rest => ?_⟩
    rw [List.cons_append, parseStringBody.eq_def]
    split
    · simp_all
    · simp_all
    · simp_all
    · simp_all
    · rename_i heq
      simp only [List.cons.injEq] at heq
      obtain ⟨rfl, rfl⟩ := heq
      simp only [hc, if_false, hl rest]

theorem string_local (s v r : Bytes) (h : parseJsonString s = some (v, r)) :
    ∃ x, s = x ++ r ∧ ∀ rest, parseJsonString (x ++ rest) = some (v, rest) := by
  rw [parseJsonString.eq_def] at h
  split at h
  · rename_i s
    obtain ⟨x, hx, hl⟩ := body_local s v r h
    exact ⟨34 :: x, by rw [hx]; rfl, fun rest => by simp [parseJsonString, hl rest]⟩
  · simp at h

/-- Whatever is read of a text is a text for it. -/
theorem value_local : ∀ f, (∀ s j r, parseValue f s = some (j, r) → ∃ x, s = x ++ r ∧ Reads x j) ∧
    (∀ s js r, parseElems f s = some (js, r) → ∃ x, s = x ++ 93 :: r ∧ ElemsRead x js) ∧
    (∀ s kvs r, parseMembers f s = some (kvs, r) → ∃ x, s = x ++ 125 :: r ∧ MembersRead x kvs) := by
  intro f
  induction f with
  | zero => exact ⟨fun s j r h => by simp [parseValue] at h, fun s j r h => by simp [parseElems] at h, fun s j r h => by simp [parseMembers] at h⟩
  | succ f ih =>
    obtain ⟨ihv, ihe, ihm⟩ := ih
    refine ⟨fun s j r h => ?_, fun s js r h => ?_, fun s kvs r h => ?_⟩
    · rw [parseValue.eq_def] at h
      simp only at h
      split at h
      · simp only [Option.some.injEq, Prod.mk.injEq] at h; obtain ⟨rfl, rfl⟩ := h
        exact ⟨_, rfl, reads_null⟩
      · simp only [Option.some.injEq, Prod.mk.injEq] at h; obtain ⟨rfl, rfl⟩ := h
        exact ⟨_, rfl, reads_true⟩
      · simp only [Option.some.injEq, Prod.mk.injEq] at h; obtain ⟨rfl, rfl⟩ := h
        exact ⟨_, rfl, reads_false⟩
      · rename_i s
        cases hb : parseStringBody s with
        | none => simp [hb] at h
        | some p =>
          simp only [hb, Option.some.injEq, Prod.mk.injEq] at h
          obtain ⟨rfl, rfl⟩ := h
          obtain ⟨x, hx, hl⟩ := body_local s _ _ hb
          exact ⟨34 :: x, by rw [hx]; rfl, reads_string _ _ fun rest => by simp [parseJsonString, hl rest]⟩
      · simp only [Option.some.injEq, Prod.mk.injEq] at h; obtain ⟨rfl, rfl⟩ := h
        exact ⟨_, rfl, arr_nil_reads⟩
      · rename_i s _
        cases hb : parseElems f s with
        | none => simp [hb] at h
        | some p =>
          simp only [hb, Option.some.injEq, Prod.mk.injEq] at h
          obtain ⟨rfl, rfl⟩ := h
          obtain ⟨x, hx, hl⟩ := ihe s _ _ hb
          exact ⟨91 :: x ++ [93], by rw [hx]; simp, arr_reads _ _ hl⟩
      · simp only [Option.some.injEq, Prod.mk.injEq] at h; obtain ⟨rfl, rfl⟩ := h
        exact ⟨_, rfl, obj_nil_reads⟩
      · rename_i s _
        cases hb : parseMembers f s with
        | none => simp [hb] at h
        | some p =>
          simp only [hb, Option.some.injEq, Prod.mk.injEq] at h
          obtain ⟨rfl, rfl⟩ := h
          obtain ⟨x, hx, hl⟩ := ihm s _ _ hb
          exact ⟨123 :: x ++ [125], by rw [hx]; simp, obj_reads _ _ hl⟩
      · obtain ⟨x, hx, ⟨c, t, rfl, hc⟩, hl⟩ := number_local _ r j h
        refine ⟨c :: t, hx, ⟨c, t, rfl, ?_⟩, fun f' rest hf hr => ?_⟩
        · intro h93; subst h93; revert hc; decide
        · obtain ⟨f'', rfl⟩ : ∃ f'', f' = f'' + 1 := ⟨f' - 1, by simp only [List.length_cons] at hf; omega⟩
          rw [List.cons_append, parseValue_number f'' c _ hc]
          exact hl rest hr
    · rw [parseElems] at h
      split at h
      · rename_i v r1 hv
        cases hb : parseElems f r1 with
        | none => simp [hb] at h
        | some p =>
          simp only [hb, Option.some.injEq, Prod.mk.injEq] at h
          obtain ⟨rfl, rfl⟩ := h
          obtain ⟨x, hx, hl⟩ := ihv s _ _ hv
          obtain ⟨y, hy, hl'⟩ := ihe r1 _ _ hb
          exact ⟨x ++ 44 :: y, by rw [hx, hy]; simp, elems_more _ _ _ _ hl hl'⟩
      · rename_i v r1 hv
        simp only [Option.some.injEq, Prod.mk.injEq] at h
        obtain ⟨rfl, rfl⟩ := h
        obtain ⟨x, hx, hl⟩ := ihv s _ _ hv
        exact ⟨x, hx, elems_one _ _ hl⟩
      · simp at h
    · rw [parseMembers] at h
      split at h
      · rename_i k r1 hk
        obtain ⟨kx, hkx, hkl⟩ := string_local s _ _ hk
        split at h
        · rename_i v r2 hv
          obtain ⟨x, hx, hl⟩ := ihv r1 _ _ hv
          cases hb : parseMembers f r2 with
          | none => simp [hb] at h
          | some p =>
            simp only [hb, Option.some.injEq, Prod.mk.injEq] at h
            obtain ⟨rfl, rfl⟩ := h
            obtain ⟨y, hy, hl'⟩ := ihm r2 _ _ hb
            exact ⟨kx ++ 58 :: x ++ 44 :: y, by rw [hkx, hx, hy]; simp, members_more _ _ _ _ _ _ (fun rest => hkl _) hl hl'⟩
        · rename_i v r2 hv
          simp only [Option.some.injEq, Prod.mk.injEq] at h
          obtain ⟨rfl, rfl⟩ := h
          obtain ⟨x, hx, hl⟩ := ihv r1 _ _ hv
          exact ⟨kx ++ 58 :: x, by rw [hkx, hx]; simp, members_one _ _ _ _ (fun rest => hkl _) hl⟩
        · simp at h
      · simp at h

theorem document_reads (s : Bytes) (j : Json) (h : parseDocument s = some j) : Reads s j := by
  unfold parseDocument at h
  split at h
  · rename_i j' hp
    simp only [Option.some.injEq] at h
    obtain ⟨x, hx, hr⟩ := (value_local _).1 s _ _ hp
    rw [List.append_nil] at hx
    rw [hx, ← h]; exact hr
  · simp at h

mutual
/-- Every value of every type: the text appended is a text for the expected tree. -/
theorem encode_reads (v : Val) (t : Ty) (j : Json) (pfx space : Bytes)
    (he : expected v t = some j) (hv : GoodVal v) (ht : GoodTy t) :
    ∃ x, encode v (encoderOf false pfx t) space = space ++ x ∧ Reads x j := by
  match v with
  | .bool b =>
    cases t <;> simp only [expected, reduceCtorEq, Option.some.injEq] at he
    subst he
    cases b
    · exact ⟨_, by simp [encoderOf, encode], reads_false⟩
    · exact ⟨_, by simp [encoderOf, encode], reads_true⟩
  | .i8 v =>
    cases t <;> simp only [expected, reduceCtorEq, Option.some.injEq] at he
    subst he
    exact ⟨_, by simp only [encoderOf, encode]; exact i8_text _ _, reads_int _⟩
  | .u8 v =>
    cases t <;> simp only [expected, reduceCtorEq, Option.some.injEq] at he
    subst he
    exact ⟨_, by simp only [encoderOf, encode]; exact u8_text _ _, reads_int _⟩
  | .i16 v =>
    cases t <;> simp only [expected, reduceCtorEq, Option.some.injEq] at he
    subst he
    exact ⟨_, by simp only [encoderOf, encode]; exact i16_text _ _, reads_int _⟩
  | .u16 v =>
    cases t <;> simp only [expected, reduceCtorEq, Option.some.injEq] at he
    subst he
    exact ⟨_, by simp only [encoderOf, encode]; exact u16_text _ _, reads_int _⟩
  | .i32 v =>
    cases t <;> simp only [expected, reduceCtorEq, Option.some.injEq] at he
    subst he
    exact ⟨_, by simp only [encoderOf, encode]; exact i32_text _ _ hv, reads_int _⟩
  | .u32 v =>
    cases t <;> simp only [expected, reduceCtorEq, Option.some.injEq] at he
    subst he
    exact ⟨_, by simp only [encoderOf, encode]; exact u32_text _ _ hv, reads_int _⟩
  | .i64 v =>
    cases t <;> simp only [expected, reduceCtorEq, Option.some.injEq] at he
    subst he
    exact ⟨_, by simp only [encoderOf, encode]; exact i64_text _ _, reads_int _⟩
  | .u64 v =>
    cases t <;> simp only [expected, reduceCtorEq, Option.some.injEq] at he
    subst he
    exact ⟨_, by simp only [encoderOf, encode]; exact u64_text _ _ hv, reads_int _⟩
  | .float neg m k =>
    cases t <;> simp only [expected, reduceCtorEq, Option.some.injEq] at he
    subst he
    obtain ⟨t, ht, hs⟩ := float_text space neg m k hv
    exact ⟨_, by simp only [encoderOf, encode]; exact ht, reads_six neg t _ hs⟩
  | .str s =>
    cases t <;> simp only [expected, reduceCtorEq, Option.some.injEq] at he
    subst he
    refine ⟨_, by simp only [encoderOf, encode]; exact writeString_appends _ _, ?_⟩
    exact reads_string _ _ (fun rest => writeString_roundtrip_partial s rest hv)
  | .bytes s =>
    cases t <;> simp only [expected, reduceCtorEq, Option.some.injEq] at he
    subst he
    refine ⟨_, by simp only [encoderOf, encode]; exact writeBytes_appends _ _, ?_⟩
    exact reads_string _ _ (fun rest => bytes_reads s hv.1 hv.2 rest)
  | .err msg =>
    cases t <;> simp only [expected, reduceCtorEq, Option.some.injEq] at he
    subst he
    refine ⟨34 :: msg ++ [34], by simp [encoderOf, encode], reads_string _ _ fun rest => ?_⟩
    simpa using parseString_plain msg rest (fun c hc => needs_plain c (hv c hc))
  | .marshErr msg =>
    cases t <;> simp only [expected, reduceCtorEq, Option.some.injEq] at he
    subst he
    refine ⟨34 :: msg ++ [34], by simp [encoderOf, encode], reads_string _ _ fun rest => ?_⟩
    simpa using parseString_plain msg rest (fun c hc => needs_plain c (hv c hc))
  | .marshOk out =>
    cases t <;> simp only [expected, reduceCtorEq] at he
    exact ⟨out, by simp [encoderOf, encode], document_reads out j he⟩
  | .nil =>
    cases t <;> simp only [expected, reduceCtorEq, Option.some.injEq] at he <;> subst he
    · exact ⟨_, by simp only [encoderOf, encode], reads_null⟩
    · exact ⟨_, by rw [encoderOf_map]; simp only [encode], reads_null⟩
    · exact ⟨_, by simp only [encoderOf, encode], reads_null⟩
  | .ptr v =>
    cases t <;> simp only [expected, reduceCtorEq] at he
    rename_i t
    simp only [encoderOf, encode]
    exact encode_reads v t j _ space he hv ht
  | .iface t' v =>
    cases t <;> simp only [expected, reduceCtorEq] at he
    simp only [encoderOf, encode]
    exact encode_reads v t' j _ space he hv.2 hv.1
  | .seq vs =>
    cases t <;> simp only [expected, reduceCtorEq, Option.map_eq_some_iff] at he
    all_goals
      rename_i t
      obtain ⟨js, hjs, rfl⟩ := he
      simp only [encoderOf, encode]
      obtain ⟨hnil, hcons⟩ := elems_reads vs t js (pfx ++ asc " [sliceElem]") true (space ++ [91]) hjs hv ht
      cases vs with
      | nil =>
        obtain ⟨h1, h2⟩ := hnil rfl
        refine ⟨[91, 93], by rw [h2]; simp, ?_⟩
        rw [h1]; exact arr_nil_reads
      | cons v' vs' =>
        obtain ⟨x, hx, hr⟩ := hcons (by simp)
        refine ⟨91 :: x ++ [93], by rw [hx]; simp, arr_reads x js hr⟩
  | .map kvs =>
    cases t <;> simp only [expected, reduceCtorEq, Option.map_eq_some_iff] at he
    rename_i kt vt
    obtain ⟨js, hjs, rfl⟩ := he
    rw [encoderOf_map]
    simp only [encode]
    obtain ⟨hnil, hcons⟩ := pairs_reads kvs kt vt js pfx (pfx ++ asc " [mapElem]") true (space ++ [123]) hjs hv ht.2
    cases kvs with
    | nil =>
      obtain ⟨h1, h2⟩ := hnil rfl
      refine ⟨[123, 125], by rw [h2]; simp, ?_⟩
      rw [h1]; exact obj_nil_reads
    | cons k' v' vs' =>
      obtain ⟨x, hx, hr⟩ := hcons (by simp)
      refine ⟨123 :: x ++ [125], by rw [hx]; simp, obj_reads x js hr⟩
  | .struct vs =>
    cases t <;> simp only [expected, reduceCtorEq, Option.map_eq_some_iff] at he
    rename_i fs
    obtain ⟨js, hjs, rfl⟩ := he
    simp only [encoderOf, encode]
    obtain ⟨hnil, hcons⟩ := fields_read vs fs js false (space ++ [123]) hjs hv ht
    by_cases hj : js = []
    · refine ⟨[123, 125], by rw [hnil hj]; simp, ?_⟩
      rw [hj]; exact obj_nil_reads
    · obtain ⟨x, hx, hr⟩ := hcons hj
      refine ⟨123 :: x ++ [125], by rw [hx]; simp, obj_reads x js hr⟩

theorem elems_reads (vs : Vals) (t : Ty) (js : List Json) (pfx : Bytes) (first : Bool)
    (space : Bytes) (he : expectedElems vs t = some js) (hv : GoodVals vs) (ht : GoodTy t) :
    (vs = .nil → js = [] ∧ encodeElems vs (encoderOf false pfx t) first space = space) ∧
    (vs ≠ .nil → ∃ x, encodeElems vs (encoderOf false pfx t) first space =
      space ++ (if first then [] else [44]) ++ x ∧ ElemsRead x js) := by
  match vs with
  | .nil =>
    simp only [expectedElems, Option.some.injEq] at he
    refine ⟨fun _ => ⟨he.symm, by simp [encodeElems]⟩, fun h => absurd rfl h⟩
  | .cons v vs' =>
    refine ⟨fun h => (by cases h), fun _ => ?_⟩
    simp only [expectedElems] at he
    split at he
    · rename_i j js' hj hjs'
      simp only [Option.some.injEq] at he
      subst he
      obtain ⟨x1, hx1, hr1⟩ := encode_reads v t j pfx (if first then space else space ++ [44]) hj hv.1 ht
      obtain ⟨hnil, hcons⟩ := elems_reads vs' t js' pfx false
        ((if first then space else space ++ [44]) ++ x1) hjs' hv.2 ht
      simp only [encodeElems, hx1]
      have hsp : (if first then space else space ++ [44]) = space ++ (if first then [] else [44]) := by
        cases first <;> simp
      cases vs' with
      | nil =>
        obtain ⟨h1, h2⟩ := hnil rfl
        refine ⟨x1, by rw [h2, hsp], ?_⟩
        rw [h1]; exact elems_one x1 j hr1
      | cons v'' vs'' =>
        obtain ⟨x, hx, hr⟩ := hcons (by simp)
        refine ⟨x1 ++ 44 :: x, by rw [hx, hsp]; simp, elems_more x1 x j js' hr1 hr⟩
    · simp at he

theorem pairs_reads (ps : Pairs) (kt vt : Ty) (js : List (Bytes × Json)) (kpfx pfx : Bytes) (first : Bool)
    (space : Bytes) (he : expectedPairs ps kt vt = some js) (hv : GoodPairs ps) (ht : GoodTy vt) :
    (ps = .nil → js = [] ∧
      encodePairs ps (encoderOfMapKey false kpfx kt) (encoderOf false pfx vt) first space = space) ∧
    (ps ≠ .nil → ∃ x,
      encodePairs ps (encoderOfMapKey false kpfx kt) (encoderOf false pfx vt) first space =
      space ++ (if first then [] else [44]) ++ x ∧ MembersRead x js) := by
  match ps with
  | .nil =>
    simp only [expectedPairs, Option.some.injEq] at he
    refine ⟨fun _ => ⟨he.symm, by simp [encodePairs_nil]⟩, fun h => absurd rfl h⟩
  | .cons k v ps' =>
    refine ⟨fun h => (by cases h), fun _ => ?_⟩
    simp only [expectedPairs] at he
    split at he
    · rename_i kb j js' hk hj hjs'
      simp only [Option.some.injEq] at he
      subst he
      have hsp : (if first then space else space ++ [44]) = space ++ (if first then [] else [44]) := by
        cases first <;> simp
      -- the key text
      have hkey : ∃ kx, KeyReads kx kb ∧ ∀ elem : Bytes → Bytes,
          encodePairs (.cons k v ps') (encoderOfMapKey false kpfx kt) (encoderOf false pfx vt) first space =
          encodePairs ps' (encoderOfMapKey false kpfx kt) (encoderOf false pfx vt) false
            (encode v (encoderOf false pfx vt)
              ((if first then space else space ++ [44]) ++ kx ++ [58])) := by
        have base : ∀ (k' : Val) (kt' : Ty), keyText k' kt' = some kb → GoodVal k' → ∀ p sp,
            ∃ kx, KeyReads kx kb ∧
            ((∃ e, encoderOfMapKey false p kt' = .number e ∧
                encode k' e (sp ++ [34]) ++ [34, 58] = sp ++ kx ++ [58]) ∨
             (∃ e, encoderOfMapKey false p kt' = .string e ∧
                encode k' e sp ++ [58] = sp ++ kx ++ [58])) := by
          intro k' kt' h g p sp
          exact key_text false p k' kt' kb h g sp
        by_cases hif : ∃ t' kv, k = .iface t' kv ∧ kt = .iface
        · obtain ⟨t', kv, rfl, rfl⟩ := hif
          simp only [keyText'] at hk
          obtain ⟨kx, hkx, hor⟩ := base kv t' hk hv.1.2 kpfx (if first then space else space ++ [44])
          refine ⟨kx, hkx, fun _ => ?_⟩
          have hki : encoderOfMapKey false kpfx .iface = .iface false kpfx := rfl
          rw [hki, encodePairs_iface]
          rcases hor with ⟨e, h1, h2⟩ | ⟨e, h1, h2⟩
          · rw [h1]; simp only; rw [h2]
          · rw [h1]; simp only; rw [h2]
        · have hk' : keyText k kt = some kb := by
            unfold keyText' at hk
            split at hk
            · exact absurd ⟨_, _, rfl, rfl⟩ hif
            · exact hk
          obtain ⟨kx, hkx, hor⟩ := base k kt hk' hv.1 kpfx (if first then space else space ++ [44])
          refine ⟨kx, hkx, fun _ => ?_⟩
          rcases hor with ⟨e, h1, h2⟩ | ⟨e, h1, h2⟩
          · rw [h1, encodePairs_number, h2]
          · rw [h1, encodePairs_string, h2]
      obtain ⟨kx, hkx, hstep⟩ := hkey
      rw [hstep id]
      obtain ⟨x1, hx1, hr1⟩ := encode_reads v vt j pfx
        ((if first then space else space ++ [44]) ++ kx ++ [58]) hj hv.2.1 ht
      obtain ⟨hnil, hcons⟩ := pairs_reads ps' kt vt js' kpfx pfx false
        ((if first then space else space ++ [44]) ++ kx ++ [58] ++ x1) hjs' hv.2.2 ht
      rw [hx1]
      cases ps' with
      | nil =>
        obtain ⟨h1, h2⟩ := hnil rfl
        refine ⟨kx ++ 58 :: x1, by rw [h2, hsp]; simp, ?_⟩
        rw [h1]; exact members_one kx x1 kb j hkx hr1
      | cons k'' v'' vs'' =>
        obtain ⟨x, hx, hr⟩ := hcons (by simp)
        refine ⟨kx ++ 58 :: x1 ++ 44 :: x, by rw [hx, hsp]; simp, members_more kx x1 kb x j js' hkx hr1 hr⟩
    · simp at he

theorem fields_read (vs : Vals) (fs : Fields) (js : List (Bytes × Json)) (any : Bool)
    (space : Bytes) (he : expectedFields vs fs = some js) (hv : GoodVals vs) (ht : GoodFields fs) :
    (js = [] → encodeFields vs (encoderOfFields false any fs) space = space) ∧
    (js ≠ [] → ∃ x, encodeFields vs (encoderOfFields false any fs) space =
      space ++ (if any then [44] else []) ++ x ∧ MembersRead x js) := by
  match vs with
  | .nil =>
    cases fs <;> simp only [expectedFields, reduceCtorEq, Option.some.injEq] at he
    refine ⟨fun _ => by simp [encodeFields], fun h => absurd he.symm h⟩
  | .cons v vs' =>
    cases fs with
    | nil => simp only [expectedFields, reduceCtorEq] at he
    | cons name tag ty fs' =>
      obtain ⟨hn1, hn2, hn3, hty, hfs⟩ := ht
      have hname := getFieldName_eq name tag ty hn1
      simp only [expectedFields] at he
      split at he
      · rename_i hnone
        rw [hnone] at hname
        simp only [Option.getD_none] at hname
        have ih := fields_read vs' fs' js any space he hv.2 hfs
        simpa [encoderOfFields, hname.1, encodeFields] using ih
      · rename_i n hsome
        split at he
        · rename_i j js' hj hjs'
          simp only [Option.some.injEq] at he
          subst he
          rw [hsome] at hname
          simp only [Option.getD_some, ne_eq, Option.some.injEq] at hname
          refine ⟨fun h => by simp at h, fun _ => ?_⟩
          simp only [encoderOfFields, hname.1, hname.2, if_false, encodeFields]
          have hnp : ∀ c ∈ n, ¬ NeedsEscape c := by
            unfold visibleName at hsome
            split at hsome
            · simp only [Option.some.injEq] at hsome
              rw [← hsome]
              split
              · exact hn2
              · exact hn3
            · simp at hsome
          obtain ⟨x1, hx1, hr1⟩ := encode_reads v ty j
            ((if any = true then [44] else []) ++ [34] ++ n ++ [34, 58] ++ asc " ." ++ n)
            (space ++ ((if any = true then [44] else []) ++ [34] ++ n ++ [34, 58])) hj hv.1 hty
          obtain ⟨hnil, hcons⟩ := fields_read vs' fs' js' true
            (space ++ ((if any = true then [44] else []) ++ [34] ++ n ++ [34, 58]) ++ x1) hjs' hv.2 hfs
          rw [hx1]
          by_cases hj' : js' = []
          · subst hj'
            refine ⟨34 :: n ++ [34] ++ 58 :: x1, by rw [hnil rfl]; simp, ?_⟩
            exact members_one _ x1 n j (fieldKey_reads n hnp) hr1
          · obtain ⟨x, hx, hr⟩ := hcons hj'
            refine ⟨34 :: n ++ [34] ++ 58 :: x1 ++ 44 :: x, by rw [hx]; simp, ?_⟩
            exact members_more _ x1 n x j js' (fieldKey_reads n hnp) hr1 hr
        · simp at he
end

/-- C17 (partial): the text for any value of any nesting parses, as one complete
JSON document, to exactly the tree the value stands for, as long as all leaves are
in the regions where the scalar writers are right and member names are plain ASCII
text.  Missing: those leaves (C12, C13, C14, C16), error messages that need escapes
(`error_value_invalid`), what a `MarshalJSON` returns that is not compact JSON, unsupported types (`unsupported_field_invalid`), names needing escapes
(`tag_quote_invalid`), recursive types. -/
theorem marshal_parses_partial (t : Ty) (v : Val) (j : Json)
    (he : expected v t = some j) (hv : GoodVal v) (ht : GoodTy t) :
    parseDocument (marshal t v) = some j := by
  obtain ⟨x, hx, hr⟩ := encode_reads v t j [] [] he hv ht
  unfold parseDocument marshal
  rw [hx, List.nil_append]
  have := hr.2 (2 * x.length) [] (Nat.le_refl _) numEnd_nil
  rw [List.append_nil] at this
  rw [this]

/-- `struct { Name string; Tags []string `json:"tags"`; m map[int8]*bool; Next interface{} }`. -/
def exTy : Ty :=
  .struct (.cons (asc "Name") [] .str (.cons (asc "Tags") (asc "tags,omitempty") (.slice .str)
    (.cons (asc "hidden") [] .bool (.cons (asc "M") [] (.map .int8 (.ptr .bool))
      (.cons (asc "Next") [] .iface .nil)))))

/-- A value of that type. -/
def exVal : Val :=
  .struct (.cons (.str (asc "x\"y")) (.cons (.seq (.cons (.str (asc "a")) (.cons (.str []) .nil)))
    (.cons (.bool true) (.cons (.map (.cons (.i8 (-7)) (.ptr (.bool false)) (.cons (.i8 5) .nil .nil)))
      (.cons (.iface .uint16 (.u16 65535)) .nil)))))

example : marshal exTy exVal =
    asc "{\"Name\":\"x\\\"y\",\"tags\":[\"a\",\"\"],\"M\":{\"-7\":false,\"5\":null},\"Next\":65535}" := by
  decide +kernel

theorem noLast (p : Bytes) (c : UInt8) (h : ¬ NeedsEscape c) : ¬ LostLast (p ++ [c]) := by
  rintro ⟨p', c', he, -, hc⟩
  have := List.append_inj' he rfl
  simp only [List.cons.injEq, and_true] at this
  rw [this.2] at h; exact h hc

/-- The hypotheses of `marshal_parses_partial` hold for it. -/
example : (∃ j, expected exVal exTy = some j) ∧ GoodVal exVal ∧ GoodTy exTy := by
  refine ⟨⟨_, rfl⟩, ?_, ?_⟩
  · have h0 : ¬ LostLast [] := by rintro ⟨p, c, h, -⟩; simp at h
    have ha : ¬ LostLast (asc "a") := noLast [] 97 (by unfold NeedsEscape; decide)
    have hx : ¬ LostLast (asc "x\"y") := noLast (asc "x\"") 121 (by unfold NeedsEscape; decide)
    simp [exVal, GoodVal, GoodVals, GoodPairs, GoodTy, h0, ha, hx]
  · simp only [exTy, GoodTy, GoodFields, NeedsEscape, and_true, true_and]
    refine ⟨⟨78, asc "ame", rfl, by decide⟩, by decide, by decide,
      ⟨84, asc "ags", rfl, by decide⟩, by decide, by decide,
      ⟨104, asc "idden", rfl, by decide⟩, by decide, by decide,
      ⟨77, [], rfl, by decide⟩, by decide, by decide,
      ⟨78, asc "ext", rfl, by decide⟩, by decide, by decide⟩

/-- Errors and values with a `MarshalJSON` inside others. -/
example :
    let t : Ty := .slice .iface
    let v : Val := .seq (.cons (.iface .err (.err (asc "EOF"))) (.cons (.iface .marshaler (.marshOk (asc "[1,{\"a\":2.50}]")))
      (.cons (.iface .marshaler (.marshErr (asc "no"))) .nil)))
    (∃ j, expected v t = some j) ∧ GoodVal v ∧ GoodTy t ∧ marshal t v = asc "[\"EOF\",[1,{\"a\":2.50}],\"no\"]" := by
  have h : (parseDocument (asc "[1,{\"a\":2.50}]")).isSome = true := by decide +kernel
  obtain ⟨j, hj⟩ := Option.isSome_iff_exists.mp h
  refine ⟨⟨_, by simp only [expected, expectedElems, hj]; rfl⟩, ?_, trivial, by decide +kernel⟩
  simp only [GoodVal, GoodVals, GoodTy, NeedsEscape, and_true, true_and]
  decide

/-- C17, negation for unsupported field types: a struct with a complex number field is
not encoded as JSON (the marker text contains raw quotes). -/
theorem unsupported_field_invalid :
    parseDocument (marshal (.struct (.cons (asc "C") [] (.other (asc "complex128")) .nil))
      (.struct (.cons .nil .nil))) = none := by
  have : marshal (.struct (.cons (asc "C") [] (.other (asc "complex128")) .nil))
      (.struct (.cons .nil .nil)) =
      asc "{\"C\":\"can not encode complex128 \"C\": .C to json\"}" := by decide +kernel
  rw [this]; exact Option.isNone_iff_eq_none.mp (by decide +kernel)

/-- C63 (partial): outside structs the marker for an unsupported type is one JSON
string, if the type's name is plain text.  Missing: the same inside a struct, where it
is false for every field name (`unsupported_field_invalid`). -/
theorem unsupported_top_partial (name : Bytes) (v : Val) (h : ∀ c ∈ name, ¬ NeedsEscape c) :
    parseDocument (marshal (.other name) v) =
      some (.str (asc "can not encode " ++ name ++ asc "  to json")) := by
  have hx : marshal (.other name) v =
      34 :: (asc "can not encode " ++ name ++ asc "  to json") ++ [34] := by
    have e1 : asc "\"can not encode " = 34 :: asc "can not encode " := by decide +kernel
    have e2 : asc "  to json" = asc " " ++ (asc " to json") := by decide +kernel
    have e3 : asc " to json\"" = asc " to json" ++ [34] := by decide +kernel
    cases v <;> simp [marshal, encoderOf, encode, unsupportedMsg, e1, e2, e3]
  have hr : Reads (34 :: (asc "can not encode " ++ name ++ asc "  to json") ++ [34])
      (.str (asc "can not encode " ++ name ++ asc "  to json")) := by
    apply reads_string
    intro rest
    have := parseString_plain (asc "can not encode " ++ name ++ asc "  to json") rest (fun c hc => by
      simp only [List.mem_append] at hc
      rcases hc with (hc | hc) | hc
      · revert c; decide +kernel
      · exact needs_plain c (h c hc)
      · revert c; decide +kernel)
    simpa using this
  rw [hx]
  unfold parseDocument
  have := hr.2 _ [] (Nat.le_refl _) numEnd_nil
  rw [List.append_nil] at this
  rw [this]

example : parseDocument (marshal (.other (asc "complex128")) .nil) =
    some (.str (asc "can not encode complex128  to json")) := by
  have := unsupported_top_partial (asc "complex128") .nil (by unfold NeedsEscape; decide)
  rw [this]; rfl

/-- C17, negation for tag names: a quote in a json tag name is emitted raw. -/
theorem tag_quote_invalid :
    parseDocument (marshal (.struct (.cons (asc "A") (asc "a\"b") .bool .nil))
      (.struct (.cons (.bool true) .nil))) = none := by
  have : marshal (.struct (.cons (asc "A") (asc "a\"b") .bool .nil))
      (.struct (.cons (.bool true) .nil)) = asc "{\"a\"b\":true}" := by decide +kernel
  rw [this]; exact Option.isNone_iff_eq_none.mp (by decide +kernel)

/-- C64, negation: the text of an error value is not escaped. -/
theorem error_value_invalid :
    parseDocument (marshal .err (.err (asc "open \"x\": no such file"))) = none := by
  have : marshal .err (.err (asc "open \"x\": no such file")) =
    asc "\"open \"x\": no such file\"" := by decide +kernel
  rw [this]; exact Option.isNone_iff_eq_none.mp (by decide +kernel)

/-- C64 (partial): an error message without quote, backslash and control bytes parses
back.  Missing: all other messages. -/
theorem error_value_partial (msg : Bytes) (h : ∀ c ∈ msg, ¬ NeedsEscape c) :
    parseDocument (marshal .err (.err msg)) = some (.str msg) := by
  have hx : marshal .err (.err msg) = 34 :: msg ++ [34] := by simp [marshal, encoderOf, encode]
  have hr : Reads (34 :: msg ++ [34]) (.str msg) := by
    apply reads_string
    intro rest
    have := parseString_plain msg rest (fun c hc => needs_plain c (h c hc))
    simpa using this
  rw [hx]
  unfold parseDocument
  have := hr.2 _ [] (Nat.le_refl _) numEnd_nil
  rw [List.append_nil] at this
  rw [this]

example : parseDocument (marshal .err (.err (asc "EOF"))) = some (.str (asc "EOF")) := by
  apply error_value_partial; unfold NeedsEscape; decide

/-! ### C18 -/

/-- The member names of a struct encoder, in order (read off the prefixes). -/
def memberNames : FieldEncs → List Bytes
  | .nil => []
  | .skip fs => memberNames fs
  | .cons pfx _ fs => pfx :: memberNames fs

/-- The names that should be visible, in declaration order. -/
def visibleNames : Fields → List Bytes
  | .nil => []
  | .cons name tag ty fs =>
    match visibleName name tag ty with
    | some n => n :: visibleNames fs
    | none => visibleNames fs

/-- `"name":` with a comma in front of all but the first. -/
def withCommas : Bool → List Bytes → List Bytes
  | _, [] => []
  | any, n :: ns => ((if any then [44] else []) ++ [34] ++ n ++ [34, 58]) :: withCommas true ns

/-- All names start with an ASCII byte. -/
def AsciiNames : Fields → Prop
  | .nil => True
  | .cons name _ _ fs => (∃ c r, name = c :: r ∧ c < 128) ∧ AsciiNames fs

/-- C18 (partial): exactly the visible fields, in order, under their right names.
Missing: identifiers starting with a non-ASCII letter, where it is false
(`unexported_latin1_emitted`). -/
theorem struct_fields_exact_partial (fs : Fields) (h : AsciiNames fs) :
    memberNames (encoderOfFields false false fs) = withCommas false (visibleNames fs) := by
  suffices ∀ any, memberNames (encoderOfFields false any fs) = withCommas any (visibleNames fs) from
    this false
  have key : ∀ (n : Nat) (fs : Fields), sizeOf fs ≤ n → AsciiNames fs → ∀ any,
      memberNames (encoderOfFields false any fs) = withCommas any (visibleNames fs) := by
    intro n
    induction n with
    | zero => intro fs hs; cases fs <;> simp at hs
    | succ n ih =>
      intro fs hs h any
      cases fs with
      | nil => rfl
      | cons name tag ty fs' =>
        have hname := getFieldName_eq name tag ty h.1
        have hlt : sizeOf fs' ≤ n := by simp at hs; omega
        simp only [encoderOfFields, visibleNames]
        cases hv : visibleName name tag ty with
        | none =>
          rw [hv] at hname
          simp only [Option.getD_none] at hname
          simp only [hname.1, if_true, memberNames]
          exact ih fs' hlt h.2 any
        | some nm =>
          rw [hv] at hname
          simp only [Option.getD_some, ne_eq, Option.some.injEq] at hname
          simp only [hname.1, hname.2, if_false, memberNames, withCommas]
          rw [ih fs' hlt h.2 true]
  exact fun any => key _ fs (Nat.le_refl _) h any

example : visibleNames (.cons (asc "A") [] .bool (.cons (asc "b") [] .bool
    (.cons (asc "C") (asc "-") .bool (.cons (asc "F") [] (.func (asc "func()"))
    (.cons (asc "D") (asc "d,string") .int64 (.cons (asc "E") (asc ",omitempty") .str .nil)))))) =
    [asc "A", asc "d", asc "E"] := by decide +kernel

/-- C18, negation: a field whose name starts with a lower case Latin-1 letter
(U+00DF..U+00FF except U+00F7) is not exported, but is emitted. -/
theorem unexported_latin1_emitted (c : UInt8) (r : Bytes) (h1 : 0x9F ≤ c) (_h2 : c ≤ 0xBF) :
    exported (0xC3 :: c :: r) = some false ∧
    getFieldName false (0xC3 :: c :: r) [] .bool = 0xC3 :: c :: r := by
  constructor
  · have : ¬ c ≤ 0x9E := by
      simp only [UInt8.le_iff_toNat_le] at h1 ⊢
      have e1 : (0x9F : UInt8).toNat = 159 := rfl
      have e2 : (0x9E : UInt8).toNat = 158 := rfl
      omega
    simp [exported, this]
  · have : isUpperLatin1 0xC3 = true := by decide
    simp [getFieldName, this]

/-- `é` (C3 A9). -/
example : marshal (.struct (.cons [0xC3, 0xA9] [] .bool .nil)) (.struct (.cons (.bool true) .nil)) =
    asc "{\"" ++ [0xC3, 0xA9] ++ asc "\":true}" := by decide +kernel

/-- The name under which a field is shown when unexported fields are included: all but
functions, channels and fields tagged `-`. -/
def shownName (name tag : Bytes) (ty : Ty) : Option Bytes :=
  if isFuncOrChan ty = true ∨ tagName tag = [45] then none
  else if tagName tag = [] then some name else some (tagName tag)

/-- The names of all fields shown when unexported fields are included. -/
def shownNames : Fields → List Bytes
  | .nil => []
  | .cons name tag ty fs =>
    match shownName name tag ty with
    | some n => n :: shownNames fs
    | none => shownNames fs

/-- No field has an empty name (as in every Go struct). -/
def NamedFields : Fields → Prop
  | .nil => True
  | .cons name _ _ fs => name ≠ [] ∧ NamedFields fs

theorem getFieldName_true (name tag : Bytes) (ty : Ty) (hn : name ≠ []) :
    getFieldName true name tag ty = (shownName name tag ty).getD [] ∧
    shownName name tag ty ≠ some [] := by
  unfold getFieldName shownName
  rw [tagName_eq]
  by_cases htag : tag = []
  · subst htag
    cases ty <;> simp_all [isFuncOrChan, tagName]
  · cases ty <;> by_cases h1 : tagName tag = [45] <;> by_cases h2 : tagName tag = [] <;>
      simp_all [isFuncOrChan]

/-- Head of the encoding of a code point outside ASCII. -/
theorem head_upper (n : Nat) (h1 : 128 ≤ n) (h2 : isScalar n = true) :
    ∃ c r, utf8Encode n = c :: r ∧ (isUpperLatin1 c = true ↔ n < 0x7C0 ∧ ¬(0x5C0 ≤ n ∧ n < 0x600)) := by
  have tab : ∀ k : Fin 256, isUpperLatin1 (UInt8.ofNat k.val) = true ↔
      (65 ≤ k.val ∧ k.val ≤ 90) ∨ (0xC0 ≤ k.val ∧ k.val ≤ 0xDE ∧ k.val ≠ 0xD7) := by decide +kernel
  have hs : n < 0x110000 := by
    simp only [isScalar, Bool.or_eq_true, Bool.and_eq_true, decide_eq_true_eq] at h2
    omega
  unfold utf8Encode
  rw [if_neg (by omega)]
  by_cases h3 : n < 0x800
  · rw [if_pos h3]
    refine ⟨_, _, rfl, (tab ⟨0xC0 + n / 64, by omega⟩).trans ?_⟩
    simp only
    omega
  · rw [if_neg h3]
    by_cases h4 : n < 0x10000
    · rw [if_pos h4]
      refine ⟨_, _, rfl, (tab ⟨0xE0 + n / 4096, by omega⟩).trans ?_⟩
      simp only
      omega
    · rw [if_neg h4]
      refine ⟨_, _, rfl, (tab ⟨0xF0 + n / 262144, by omega⟩).trans ?_⟩
      simp only
      omega

/-- C18: which fields with names that start outside ASCII are shown: the code looks at the first byte as if it were a character, so
exactly those up to U+07BF, except U+05C0 to U+05FF, whether exported or not.  (Exported are, for example, U+0400, and
U+1E00, which is not shown.) -/
theorem outside_ascii_shown (n : Nat) (r tag : Bytes) (ty : Ty) (h1 : 128 ≤ n) (h2 : isScalar n = true) :
    getFieldName false (utf8Encode n ++ r) tag ty =
      if n < 0x7C0 ∧ ¬(0x5C0 ≤ n ∧ n < 0x600) then (shownName (utf8Encode n ++ r) tag ty).getD [] else [] := by
  obtain ⟨c, t, he, hu⟩ := head_upper n h1 h2
  rw [← (getFieldName_true (utf8Encode n ++ r) tag ty (by rw [he]; simp)).1, he]
  unfold getFieldName
  simp only [List.cons_append, List.headD_cons, Bool.not_false, Bool.true_and, Bool.not_true, Bool.false_and]
  by_cases hc : isUpperLatin1 c = true
  · rw [if_pos (hu.mp hc)]
    simp [hc]
  · rw [if_neg (fun h => hc (hu.mpr h))]
    simp [Bool.eq_false_iff.mpr hc]

example : getFieldName false (utf8Encode 0x1E00 ++ asc "x") [] .bool = [] ∧
    getFieldName false (utf8Encode 0x434 ++ asc "x") [] .bool = utf8Encode 0x434 ++ asc "x" := by decide +kernel

/-- C66 (partial): with `IncludesUnexported` the encoder of a struct shows exactly all
its fields, in order.  Missing: structs inside interface
values, where it is false (`config_lost_below_interface`). -/
theorem config_shows_all_partial (fs : Fields) (h : NamedFields fs) :
    memberNames (encoderOfFields true false fs) = withCommas false (shownNames fs) := by
  suffices ∀ any, memberNames (encoderOfFields true any fs) = withCommas any (shownNames fs) from
    this false
  have key : ∀ (n : Nat) (fs : Fields), sizeOf fs ≤ n → NamedFields fs → ∀ any,
      memberNames (encoderOfFields true any fs) = withCommas any (shownNames fs) := by
    intro n
    induction n with
    | zero => intro fs hs; cases fs <;> simp at hs
    | succ n ih =>
      intro fs hs h any
      cases fs with
      | nil => rfl
      | cons name tag ty fs' =>
        have hname := getFieldName_true name tag ty h.1
        have hlt : sizeOf fs' ≤ n := by simp at hs; omega
        simp only [encoderOfFields, shownNames]
        cases hv : shownName name tag ty with
        | none =>
          rw [hv] at hname
          simp only [Option.getD_none] at hname
          simp only [hname.1, if_true, memberNames]
          exact ih fs' hlt h.2 any
        | some nm =>
          rw [hv] at hname
          simp only [Option.getD_some, ne_eq, Option.some.injEq] at hname
          simp only [hname.1, hname.2, if_false, memberNames, withCommas]
          rw [ih fs' hlt h.2 true]
  exact fun any => key _ fs (Nat.le_refl _) h any

example : shownNames (.cons (asc "a") [] .bool (.cons (asc "b") (asc "-") .bool
    (.cons (asc "C") (asc "c") .bool .nil))) = [asc "a", asc "c"] := by decide +kernel

/-- C66, negation: a configuration that includes unexported fields does not apply
below an interface: the same struct value is shown with its fields at the top and
without them inside an interface. -/
theorem config_lost_below_interface :
    encode (.struct (.cons (.bool true) .nil))
      (encoderOf true [] (.struct (.cons (asc "a") [] .bool .nil))) [] = asc "{\"a\":true}" ∧
    encode (.iface (.struct (.cons (asc "a") [] .bool .nil)) (.struct (.cons (.bool true) .nil)))
      (encoderOf true [] .iface) [] = asc "{}" := by
  constructor <;> decide +kernel

end Verif.Jsonfmt
