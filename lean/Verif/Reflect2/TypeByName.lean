import Verif.Basic

/-!
# C133: types by their name

Model of reflect2/type_map.go: loading the types linked into the program, and `TypeByName`.
-/

namespace Verif.Reflect2.TypeByName

/-! ### Model -/

/-- A type linked into the program, as reflect2/type_map.go 37-45 and 56-59 look at it: a struct with its text (`String`) and the path
of its package, pointers, slices, and others. -/
inductive Ty
  | struct (pkgPath text : Bytes)
  | ptr (t : Ty)
  | slice (t : Ty)
  | other (text : Bytes)
  deriving DecidableEq

/-- The map `types`, reflect2/type_map.go 18: names with types, the one stored last first. -/
abbrev Types := List (Bytes × Ty)

/-- What a type adds to the map, reflect2/type_map.go 57-59 and 38-40. -/
def ofPtr : Ty → Types
  | .ptr (.struct p t) => [(t, .struct p t)]
  | _ => []

/-- What a slice of pointers adds to the map, reflect2/type_map.go 41-44. -/
def ofSlice : Ty → Types
  | .slice (.ptr (.struct p t)) => [(t, .struct p t)]
  | _ => []

/-- `loadGo15Types`, reflect2/type_map.go 31-47. -/
def load15 : List Ty → Types → Types
  | [], m => m
  | t :: r, m => load15 r (ofSlice t ++ (ofPtr t ++ m))

/-- `loadGo17Types`, reflect2/type_map.go 49-62. -/
def load17 : List Ty → Types → Types
  | [], m => m
  | t :: r, m => load17 r (ofPtr t ++ m)

/-- `init`, reflect2/type_map.go 20-29, for a version of Go and the types linked into the program. -/
def init (ver : Bytes) (links : List Ty) : Types :=
  if ver = asc "go1.5" ∨ (asc "go1.5.").isPrefixOf ver then load15 links []
  else if ver = asc "go1.6" ∨ (asc "go1.6.").isPrefixOf ver then load15 links []
  else load17 links []

/-- What `TypeByName` does: it returns a type or panics, reflect2/type_map.go 70-72. -/
inductive Result
  | type (t : Ty)
  | panic
  deriving DecidableEq

/-- `TypeByName`, reflect2/type_map.go 70-72: for a name that is not in the map `Type2` is called with nil, and `wrapType` asks it for its
kind (reflect2/reflect2.go 152-165). -/
def typeByName (m : Types) (name : Bytes) : Result :=
  match m.lookup name with
  | some t => .type t
  | none => .panic

/-! ### Specification -/

/-- A struct of the program: a pointer to it is linked in. -/
def Linked (links : List Ty) (p t : Bytes) : Prop := Ty.ptr (.struct p t) ∈ links

/-- A version of Go from 1.7 on, or not numbered. -/
def Recent (ver : Bytes) : Prop := ¬ (asc "go1.5") <+: ver ∧ ¬ (asc "go1.6") <+: ver

/-! ### Proofs -/

theorem load17_lookup (links : List Ty) (m : Types) (n : Bytes) :
    (load17 links m).lookup n = ((links.flatMap fun t => ofPtr t).reverse ++ m).lookup n := by
  induction links generalizing m with
  | nil => rfl
  | cons t r ih =>
    rw [load17, ih, List.flatMap_cons, List.reverse_append, List.append_assoc]
    have : (ofPtr t).reverse = ofPtr t := by unfold ofPtr; split <;> rfl
    rw [this]

theorem mem_ofPtr (t u : Ty) (n : Bytes) : (n, u) ∈ ofPtr t ↔ ∃ p, u = .struct p n ∧ t = .ptr (.struct p n) := by
  unfold ofPtr
  split
  · rename_i p x
    constructor
    · intro h
      obtain ⟨h1, h2⟩ := Prod.mk.inj (List.mem_singleton.mp h)
      subst h1
      exact ⟨p, h2, rfl⟩
    · rintro ⟨q, h1, h2⟩
      cases h2
      rw [h1]
      exact List.mem_singleton.mpr rfl
  · rename_i h
    constructor
    · intro h'; cases h'
    · rintro ⟨p, _, h2⟩
      exact absurd h2 (h p n)

theorem lookup_mem {l : Types} {n : Bytes} {u : Ty} (h : l.lookup n = some u) : (n, u) ∈ l := by
  induction l with
  | nil => cases h
  | cons x r ih =>
    obtain ⟨k, v⟩ := x
    rw [List.lookup] at h
    cases hk : n == k with
    | true =>
      rw [hk] at h
      rw [beq_iff_eq.mp hk]
      cases h
      exact List.mem_cons_self
    | false => rw [hk] at h; exact List.mem_cons_of_mem _ (ih h)

theorem lookup_none {l : Types} {n : Bytes} (h : l.lookup n = none) (u : Ty) : (n, u) ∉ l := by
  induction l with
  | nil => exact List.not_mem_nil
  | cons x r ih =>
    obtain ⟨k, v⟩ := x
    rw [List.lookup] at h
    cases hk : n == k with
    | true => rw [hk] at h; cases h
    | false =>
      rw [hk] at h
      intro hm
      rcases List.mem_cons.mp hm with hm | hm
      · rw [(Prod.mk.inj hm).1, beq_self_eq_true] at hk; cases hk
      · exact ih h hm

theorem init_recent {ver : Bytes} (hv : Recent ver) (links : List Ty) : init ver links = load17 links [] := by
  unfold init
  have h5 : ¬ (ver = asc "go1.5" ∨ (asc "go1.5.").isPrefixOf ver = true) := by
    rintro (h | h)
    · exact hv.1 (h ▸ List.prefix_refl _)
    · exact hv.1 ((List.IsPrefix.trans ⟨asc ".", rfl⟩ (List.isPrefixOf_iff_prefix.mp h)))
  have h6 : ¬ (ver = asc "go1.6" ∨ (asc "go1.6.").isPrefixOf ver = true) := by
    rintro (h | h)
    · exact hv.2 (h ▸ List.prefix_refl _)
    · exact hv.2 ((List.IsPrefix.trans ⟨asc ".", rfl⟩ (List.isPrefixOf_iff_prefix.mp h)))
  rw [if_neg h5, if_neg h6]

theorem mem_links (links : List Ty) (n : Bytes) (u : Ty) : (n, u) ∈ (links.flatMap fun t => ofPtr t).reverse ++ [] ↔ ∃ p, u = .struct p n ∧ Linked links p n := by
  rw [List.append_nil, List.mem_reverse, List.mem_flatMap]
  constructor
  · rintro ⟨t, ht, h⟩
    obtain ⟨p, h1, h2⟩ := (mem_ofPtr t u n).mp h
    exact ⟨p, h1, by unfold Linked; rw [← h2]; exact ht⟩
  · rintro ⟨p, h1, h2⟩
    exact ⟨_, h2, (mem_ofPtr _ u n).mpr ⟨p, h1, rfl⟩⟩

/-- C133: what is returned is a struct of the program with that text. -/
theorem found_linked {ver : Bytes} (hv : Recent ver) (links : List Ty) (n : Bytes) (u : Ty) (h : typeByName (init ver links) n = .type u) :
    ∃ p, u = .struct p n ∧ Linked links p n := by
  rw [init_recent hv] at h
  unfold typeByName at h
  cases hl : (load17 links []).lookup n with
  | none => rw [hl] at h; cases h
  | some t =>
    rw [hl] at h
    cases h
    rw [load17_lookup] at hl
    exact (mem_links links n u).mp (lookup_mem hl)

/-- C133, part: a struct of the program is found by its text, if no other has the same.  Missing: structs of packages with one name
(`shadowed`), and types that are no structs (`others_panic`). -/
theorem by_name_partial {ver : Bytes} (hv : Recent ver) (links : List Ty) (p n : Bytes) (h : Linked links p n)
    (hu : ∀ q, Linked links q n → q = p) : typeByName (init ver links) n = .type (.struct p n) := by
  cases hr : typeByName (init ver links) n with
  | type u =>
    obtain ⟨q, h1, h2⟩ := found_linked hv links n u hr
    rw [h1, hu q h2]
  | panic =>
    exfalso
    rw [init_recent hv] at hr
    unfold typeByName at hr
    cases hl : (load17 links []).lookup n with
    | some t => rw [hl] at hr; cases hr
    | none =>
      rw [load17_lookup] at hl
      exact lookup_none hl _ ((mem_links links n _).mpr ⟨p, rfl, h⟩)

/-- C133: a name of nothing in the program panics. -/
theorem unknown_panics {ver : Bytes} (hv : Recent ver) (links : List Ty) (n : Bytes) (h : ∀ p, ¬ Linked links p n) :
    typeByName (init ver links) n = .panic := by
  cases hr : typeByName (init ver links) n with
  | panic => rfl
  | type u =>
    obtain ⟨p, _, h2⟩ := found_linked hv links n u hr
    exact absurd h2 (h p)

/-! ### Disagreements and a concrete case -/

/-- C133 fails: of two structs whose packages have one name, the first cannot be found. -/
theorem shadowed {ver : Bytes} (hv : Recent ver) (links : List Ty) (p q n : Bytes) :
    typeByName (init ver (links ++ [.ptr (.struct p n), .ptr (.struct q n)])) n = .type (.struct q n) := by
  rw [init_recent hv]
  unfold typeByName
  rw [load17_lookup]
  simp [ofPtr]

/-- C133 fails: types that are no structs are not found, even if they are linked in with pointers to them. -/
theorem others_panic {ver : Bytes} (hv : Recent ver) (n : Bytes) : typeByName (init ver [.other n, .ptr (.other n), .slice (.other n)]) n = .panic := by
  rw [init_recent hv]
  rfl

/-- With Go 1.5 and 1.6 structs are found through slices of pointers to them as well. -/
theorem old_versions (p n : Bytes) : typeByName (init (asc "go1.5.2") [.slice (.ptr (.struct p n))]) n = .type (.struct p n) ∧
    typeByName (init (asc "go1.6") [.slice (.ptr (.struct p n))]) n = .type (.struct p n) ∧
    typeByName (init (asc "go1.10") [.slice (.ptr (.struct p n))]) n = .panic := by
  refine ⟨?_, ?_, ?_⟩
  · unfold init; rw [if_pos (by decide)]; simp [load15, ofSlice, ofPtr, typeByName]
  · unfold init; rw [if_neg (by decide), if_pos (by decide)]; simp [load15, ofSlice, ofPtr, typeByName]
  · unfold init; rw [if_neg (by decide), if_neg (by decide)]; simp [load17, ofPtr, typeByName]

example : Recent (asc "go1.10.1") ∧ Linked [.other (asc "int"), .ptr (.struct (asc "runtime") (asc "runtime.g"))] (asc "runtime") (asc "runtime.g") ∧
    typeByName (init (asc "go1.10.1") [.other (asc "int"), .ptr (.struct (asc "runtime") (asc "runtime.g"))]) (asc "runtime.g") =
      .type (.struct (asc "runtime") (asc "runtime.g")) :=
  ⟨⟨by decide, by decide⟩, by unfold Linked; decide, by decide⟩

end Verif.Reflect2.TypeByName
