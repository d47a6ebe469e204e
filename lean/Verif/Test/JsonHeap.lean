import Verif.Test.JsonKeys

/-!
# C59 and C124: both models of `substituteVars` agree

Theorems about the models in Verif/Test/JsonEqual.lean, where maps are values, and Verif/Test/JsonKeys.lean, where they are on a heap:
for templates without placeholders as keys they give the same.
-/

namespace Verif.JsonEqual

/-! ### Values and where they are -/

mutual
/-- A value on the heap stands for a document, and its maps are at addresses in `S`. -/
def HoldsS (h : Heap) (S : Nat → Prop) (v : V) : Doc → Prop
  | .null => v = .null
  | .bool b => v = .bool b
  | .num n => v = .num n
  | .str s => v = .str s
  | .arr l => ∃ vs, v = .arr vs ∧ HoldsSL h S vs l
  | .obj m => ∃ a kvs, v = .ref a ∧ S a ∧ h[a]? = some kvs ∧ HoldsSM h (fun _ => S) kvs m
def HoldsSL (h : Heap) (S : Nat → Prop) (vs : List V) : Items → Prop
  | .nil => vs = []
  | .cons d r => ∃ v vs', vs = v :: vs' ∧ HoldsS h S v d ∧ HoldsSL h S vs' r
def HoldsSM (h : Heap) (S : Bytes → Nat → Prop) (kvs : List (Bytes × V)) : Members → Prop
  | .nil => kvs = []
  | .cons k d r => ∃ v kvs', kvs = (k, v) :: kvs' ∧ HoldsS h (S k) v d ∧ HoldsSM h S kvs' r
end

mutual
theorem holdsS_mono (h h' : Heap) : ∀ (d : Doc) (S T : Nat → Prop) (v : V), (∀ x, S x → T x ∧ h'[x]? = h[x]?) → HoldsS h S v d → HoldsS h' T v d
  | .null, _, _, _, _, hv => hv
  | .bool _, _, _, _, _, hv => hv
  | .num _, _, _, _, _, hv => hv
  | .str _, _, _, _, _, hv => hv
  | .arr l, S, T, _, hs, ⟨vs, hv, hl⟩ => ⟨vs, hv, holdsSL_mono h h' l S T vs hs hl⟩
  | .obj m, S, T, _, hs, ⟨a, kvs, hv, ha, hk, hm⟩ =>
    ⟨a, kvs, hv, (hs a ha).1, by rw [(hs a ha).2]; exact hk, holdsSM_mono h h' m _ _ kvs (fun _ _ => hs) hm⟩
theorem holdsSL_mono (h h' : Heap) : ∀ (l : Items) (S T : Nat → Prop) (vs : List V), (∀ x, S x → T x ∧ h'[x]? = h[x]?) → HoldsSL h S vs l →
    HoldsSL h' T vs l
  | .nil, _, _, _, _, hv => hv
  | .cons d r, S, T, _, hs, ⟨v, vs', hv, hd, hr⟩ => ⟨v, vs', hv, holdsS_mono h h' d S T v hs hd, holdsSL_mono h h' r S T vs' hs hr⟩
theorem holdsSM_mono (h h' : Heap) : ∀ (m : Members) (S T : Bytes → Nat → Prop) (kvs : List (Bytes × V)),
    (∀ k ∈ m.keys, ∀ x, S k x → T k x ∧ h'[x]? = h[x]?) → HoldsSM h S kvs m → HoldsSM h' T kvs m
  | .nil, _, _, _, _, hv => hv
  | .cons k d r, S, T, _, hs, ⟨v, vs', hv, hd, hr⟩ =>
    ⟨v, vs', hv, holdsS_mono h h' d _ _ v (hs k (by simp [Members.keys])) hd,
      holdsSM_mono h h' r S T vs' (fun j hj => hs j (by simp [Members.keys, hj])) hr⟩
end

mutual
theorem holdsS_holds (h : Heap) : ∀ (d : Doc) (S : Nat → Prop) (v : V), HoldsS h S v d → Holds h v d
  | .null, _, _, hv => hv
  | .bool _, _, _, hv => hv
  | .num _, _, _, hv => hv
  | .str _, _, _, hv => hv
  | .arr l, S, _, ⟨vs, hv, hl⟩ => ⟨vs, hv, holdsSL_holds h l S vs hl⟩
  | .obj m, _, _, ⟨a, kvs, hv, _, hk, hm⟩ => ⟨a, kvs, hv, hk, holdsSM_holds h m _ kvs hm⟩
theorem holdsSL_holds (h : Heap) : ∀ (l : Items) (S : Nat → Prop) (vs : List V), HoldsSL h S vs l → HoldsL h vs l
  | .nil, _, _, hv => hv
  | .cons d r, S, _, ⟨v, vs', hv, hd, hr⟩ => ⟨v, vs', hv, holdsS_holds h d S v hd, holdsSL_holds h r S vs' hr⟩
theorem holdsSM_holds (h : Heap) : ∀ (m : Members) (S : Bytes → Nat → Prop) (kvs : List (Bytes × V)), HoldsSM h S kvs m → HoldsM h kvs m
  | .nil, _, _, hv => hv
  | .cons _ d r, S, _, ⟨v, vs', hv, hd, hr⟩ => ⟨v, vs', hv, holdsS_holds h d _ v hd, holdsSM_holds h r S vs' hr⟩
end

theorem holdsSM_get (h : Heap) (S : Bytes → Nat → Prop) (k : Bytes) : ∀ (m : Members) (kvs : List (Bytes × V)), HoldsSM h S kvs m →
    (kvs.lookup k = none ∧ m.get k = none) ∨ ∃ v d, kvs.lookup k = some v ∧ m.get k = some d ∧ HoldsS h (S k) v d
  | .nil, _, hv => by rw [show _ = [] from hv]; exact Or.inl ⟨rfl, rfl⟩
  | .cons k' d r, _, ⟨v, kvs', hv, hd, hr⟩ => by
    subst hv
    simp only [List.lookup_cons, Members.get]
    by_cases hk : k = k'
    · subst hk
      simp only [beq_self_eq_true, if_true]
      exact Or.inr ⟨v, d, rfl, rfl, hd⟩
    · rw [if_neg hk, show (k == k') = false from by simpa using hk]
      exact holdsSM_get h S k r kvs' hr

theorem holdsSM_set (h : Heap) (S : Bytes → Nat → Prop) (k : Bytes) (v : V) (d : Doc) (hv : HoldsS h (S k) v d) :
    ∀ (m : Members) (kvs : List (Bytes × V)), HoldsSM h S kvs m → HoldsSM h S (assocSet kvs k v) (m.set k d)
  | .nil, _, hm => by
    rw [show _ = [] from hm]
    exact ⟨v, [], rfl, hv, rfl⟩
  | .cons x u r, _, ⟨w, kvs', hw, hu, hr⟩ => by
    subst hw
    simp only [assocSet, Members.set]
    by_cases hk : k = x
    · rw [if_pos hk, if_pos hk]
      subst hk
      exact ⟨v, kvs', rfl, hv, hr⟩
    · rw [if_neg hk, if_neg hk]
      exact ⟨w, _, rfl, hu, holdsSM_set h S k v d hv r kvs' hr⟩

/-- The entry of one key has changed below. -/
theorem holdsSM_upd (h h' : Heap) (S : Bytes → Nat → Prop) (k : Bytes) (v : V) (d : Doc) (hd : HoldsS h' (S k) v d) :
    ∀ (m : Members) (kvs : List (Bytes × V)), m.keys.Nodup → (∀ j ∈ m.keys, j ≠ k → ∀ x, S j x → h'[x]? = h[x]?) → kvs.lookup k = some v →
    HoldsSM h S kvs m → HoldsSM h' S kvs (m.set k d)
  | .nil, _, _, _, hl, hm => by
    rw [show _ = [] from hm] at hl
    cases hl
  | .cons x u r, _, hn, hs, hl, ⟨w, kvs', hw, hu, hr⟩ => by
    subst hw
    simp only [Members.keys, List.nodup_cons] at hn
    simp only [Members.set]
    by_cases hk : k = x
    · rw [if_pos hk]
      subst hk
      simp only [List.lookup_cons, beq_self_eq_true] at hl
      cases hl
      refine ⟨v, kvs', rfl, hd, holdsSM_mono h h' r S S kvs' (fun j hj y hy => ⟨hy, ?_⟩) hr⟩
      exact hs j (by simp [Members.keys, hj]) (fun e => hn.1 (e ▸ hj)) y hy
    · rw [if_neg hk]
      rw [List.lookup_cons, show (k == x) = false from by simpa using hk] at hl
      refine ⟨w, kvs', rfl, holdsS_mono h h' u _ _ w (fun y hy => ⟨hy, hs x (by simp [Members.keys]) (Ne.symm hk) y hy⟩) hu, ?_⟩
      exact holdsSM_upd h h' S k v d hd r kvs' hn.2 (fun j hj => hs j (by simp [Members.keys, hj])) hl hr

theorem set_keys (m : Members) (k : Bytes) (d : Doc) : (m.set k d).keys = if k ∈ m.keys then m.keys else m.keys ++ [k] := by
  match m with
  | .nil => simp [Members.set, Members.keys]
  | .cons x u r =>
    have ih := set_keys r k d
    simp only [Members.set]
    by_cases hk : k = x
    · simp [hk, Members.keys]
    · rw [if_neg hk]
      simp only [Members.keys, ih, List.mem_cons, hk, false_or]
      split <;> simp

theorem set_nodup (m : Members) (k : Bytes) (d : Doc) (h : m.keys.Nodup) : (m.set k d).keys.Nodup := by
  rw [set_keys]
  split
  · exact h
  · rename_i hk
    rw [List.nodup_append]
    refine ⟨h, by simp, fun a ha b hb => ?_⟩
    simp only [List.mem_singleton] at hb
    rintro rfl
    exact hk (hb ▸ ha)

/-! ### Values apart from each other -/

/-- An address between two others. -/
def In (lo hi x : Nat) : Prop := lo ≤ x ∧ x < hi

mutual
/-- A value on the heap stands for a document; all of its maps are between `lo` and `hi`, and no two of them are the same. -/
def Own (h : Heap) (v : V) (lo hi : Nat) : Doc → Prop
  | .null => v = .null
  | .bool b => v = .bool b
  | .num n => v = .num n
  | .str s => v = .str s
  | .arr l => ∃ vs, v = .arr vs ∧ OwnL h vs lo hi l
  | .obj m => ∃ c kvs, v = .ref c ∧ lo ≤ c ∧ c < hi ∧ h[c]? = some kvs ∧ OwnM h kvs lo c m
def OwnL (h : Heap) (vs : List V) (lo hi : Nat) : Items → Prop
  | .nil => vs = []
  | .cons d r => ∃ v vs' mid, vs = v :: vs' ∧ lo ≤ mid ∧ mid ≤ hi ∧ Own h v lo mid d ∧ OwnL h vs' mid hi r
def OwnM (h : Heap) (kvs : List (Bytes × V)) (lo hi : Nat) : Members → Prop
  | .nil => kvs = []
  | .cons k d r => ∃ v kvs' mid, kvs = (k, v) :: kvs' ∧ lo ≤ mid ∧ mid ≤ hi ∧ Own h v lo mid d ∧ OwnM h kvs' mid hi r
end

mutual
theorem own_mono (h h' : Heap) : ∀ (d : Doc) (lo hi : Nat) (v : V), (∀ x, In lo hi x → h'[x]? = h[x]?) → Own h v lo hi d → Own h' v lo hi d
  | .null, _, _, _, _, hv => hv
  | .bool _, _, _, _, _, hv => hv
  | .num _, _, _, _, _, hv => hv
  | .str _, _, _, _, _, hv => hv
  | .arr l, lo, hi, _, hs, ⟨vs, hv, hl⟩ => ⟨vs, hv, ownL_mono h h' l lo hi vs hs hl⟩
  | .obj m, lo, hi, _, hs, ⟨c, kvs, hv, h1, h2, hk, hm⟩ =>
    ⟨c, kvs, hv, h1, h2, by rw [hs c ⟨h1, h2⟩]; exact hk, ownM_mono h h' m lo c kvs (fun x hx => hs x ⟨hx.1, Nat.lt_trans hx.2 h2⟩) hm⟩
theorem ownL_mono (h h' : Heap) : ∀ (l : Items) (lo hi : Nat) (vs : List V), (∀ x, In lo hi x → h'[x]? = h[x]?) → OwnL h vs lo hi l →
    OwnL h' vs lo hi l
  | .nil, _, _, _, _, hv => hv
  | .cons d r, lo, hi, _, hs, ⟨v, vs', mid, hv, h1, h2, hd, hr⟩ =>
    ⟨v, vs', mid, hv, h1, h2, own_mono h h' d lo mid v (fun x hx => hs x ⟨hx.1, Nat.lt_of_lt_of_le hx.2 h2⟩) hd,
      ownL_mono h h' r mid hi vs' (fun x hx => hs x ⟨Nat.le_trans h1 hx.1, hx.2⟩) hr⟩
theorem ownM_mono (h h' : Heap) : ∀ (m : Members) (lo hi : Nat) (kvs : List (Bytes × V)), (∀ x, In lo hi x → h'[x]? = h[x]?) →
    OwnM h kvs lo hi m → OwnM h' kvs lo hi m
  | .nil, _, _, _, _, hv => hv
  | .cons _ d r, lo, hi, _, hs, ⟨v, vs', mid, hv, h1, h2, hd, hr⟩ =>
    ⟨v, vs', mid, hv, h1, h2, own_mono h h' d lo mid v (fun x hx => hs x ⟨hx.1, Nat.lt_of_lt_of_le hx.2 h2⟩) hd,
      ownM_mono h h' r mid hi vs' (fun x hx => hs x ⟨Nat.le_trans h1 hx.1, hx.2⟩) hr⟩
end

mutual
theorem own_holds (h : Heap) : ∀ (d : Doc) (lo hi : Nat) (v : V), Own h v lo hi d → HoldsS h (In lo hi) v d
  | .null, _, _, _, hv => hv
  | .bool _, _, _, _, hv => hv
  | .num _, _, _, _, hv => hv
  | .str _, _, _, _, hv => hv
  | .arr l, lo, hi, _, ⟨vs, hv, hl⟩ => ⟨vs, hv, ownL_holds h l lo hi vs hl⟩
  | .obj m, lo, _, _, ⟨c, kvs, hv, h1, h2, hk, hm⟩ =>
    ⟨c, kvs, hv, ⟨h1, h2⟩, hk, holdsSM_mono h h m _ _ kvs (fun _ _ _ hx => ⟨⟨hx.1, Nat.lt_trans hx.2 h2⟩, rfl⟩) (ownM_holds h m lo c kvs hm)⟩
theorem ownL_holds (h : Heap) : ∀ (l : Items) (lo hi : Nat) (vs : List V), OwnL h vs lo hi l → HoldsSL h (In lo hi) vs l
  | .nil, _, _, _, hv => hv
  | .cons d r, lo, hi, _, ⟨v, vs', mid, hv, h1, h2, hd, hr⟩ =>
    ⟨v, vs', hv, holdsS_mono h h d _ _ v (fun _ hx => ⟨⟨hx.1, Nat.lt_of_lt_of_le hx.2 h2⟩, rfl⟩) (own_holds h d lo mid v hd),
      holdsSL_mono h h r _ _ vs' (fun _ hx => ⟨⟨Nat.le_trans h1 hx.1, hx.2⟩, rfl⟩) (ownL_holds h r mid hi vs' hr)⟩
theorem ownM_holds (h : Heap) : ∀ (m : Members) (lo hi : Nat) (kvs : List (Bytes × V)), OwnM h kvs lo hi m → HoldsSM h (fun _ => In lo hi) kvs m
  | .nil, _, _, _, hv => hv
  | .cons _ d r, lo, hi, _, ⟨v, vs', mid, hv, h1, h2, hd, hr⟩ =>
    ⟨v, vs', hv, holdsS_mono h h d _ _ v (fun _ hx => ⟨⟨hx.1, Nat.lt_of_lt_of_le hx.2 h2⟩, rfl⟩) (own_holds h d lo mid v hd),
      holdsSM_mono h h r _ _ vs' (fun _ _ _ hx => ⟨⟨Nat.le_trans h1 hx.1, hx.2⟩, rfl⟩) (ownM_holds h r mid hi vs' hr)⟩
end

theorem agree_append (h x : Heap) (lo i : Nat) (hx : In lo h.length i) : (h ++ x)[i]? = h[i]? := List.getElem?_append_left hx.2

mutual
theorem load_own : ∀ (d : Doc) (h : Heap), Own (load d h).2 (load d h).1 h.length (load d h).2.length d
  | .null, h => rfl
  | .bool b, h => rfl
  | .num n, h => rfl
  | .str s, h => rfl
  | .arr l, h => ⟨_, rfl, loadL_own l h⟩
  | .obj m, h => by
    obtain ⟨⟨x, hx⟩, _⟩ := loadM_holds m h
    have ih := loadM_own m h
    refine ⟨(loadM m h).2.length, (loadM m h).1, rfl, ?_, ?_, ?_, ?_⟩
    · rw [hx]; simp
    · simp [load]
    · simp [load]
    · exact ownM_mono _ _ m _ _ _ (fun y hy => agree_append _ _ _ y hy) ih
theorem loadL_own : ∀ (l : Items) (h : Heap), OwnL (loadL l h).2 (loadL l h).1 h.length (loadL l h).2.length l
  | .nil, h => rfl
  | .cons d r, h => by
    obtain ⟨⟨x, hx⟩, _⟩ := load_holds d h
    obtain ⟨⟨y, hy⟩, _⟩ := loadL_holds r (load d h).2
    refine ⟨_, _, (load d h).2.length, rfl, by rw [hx]; simp, ?_, ?_, loadL_own r (load d h).2⟩
    · simp only [loadL]; rw [hy]; simp
    · simp only [loadL]
      rw [hy]
      exact own_mono _ _ d _ _ _ (fun z hz => agree_append _ _ _ z hz) (load_own d h)
theorem loadM_own : ∀ (m : Members) (h : Heap), OwnM (loadM m h).2 (loadM m h).1 h.length (loadM m h).2.length m
  | .nil, h => rfl
  | .cons k d r, h => by
    obtain ⟨⟨x, hx⟩, _⟩ := load_holds d h
    obtain ⟨⟨y, hy⟩, _⟩ := loadM_holds r (load d h).2
    refine ⟨_, _, (load d h).2.length, rfl, by rw [hx]; simp, ?_, ?_, loadM_own r (load d h).2⟩
    · simp only [loadM]; rw [hy]; simp
    · simp only [loadM]
      rw [hy]
      exact own_mono _ _ d _ _ _ (fun z hz => agree_append _ _ _ z hz) (load_own d h)
end

/-- The entries of a map, each with a place of its own. -/
structure Parts (h : Heap) (kvs : List (Bytes × V)) (m : Members) (lo hi : Nat) (L H : Bytes → Nat) : Prop where
  own : ∀ k v d, kvs.lookup k = some v → m.get k = some d → Own h v (L k) (H k) d
  inside : ∀ k, lo ≤ L k ∧ H k ≤ hi
  apart : ∀ j k x, j ≠ k → In (L j) (H j) x → In (L k) (H k) x → False
  holds : HoldsSM h (fun k => In (L k) (H k)) kvs m

theorem ownM_parts (h : Heap) : ∀ (m : Members) (lo hi : Nat) (kvs : List (Bytes × V)), m.WF → lo ≤ hi → OwnM h kvs lo hi m →
    ∃ L H, Parts h kvs m lo hi L H
  | .nil, lo, hi, _, _, hlo, hv => by
    rw [show _ = [] from hv]
    refine ⟨fun _ => lo, fun _ => lo, fun k v d hl => (by cases hl), fun _ => ⟨Nat.le_refl _, hlo⟩, fun j k x _ h1 _ => ?_, rfl⟩
    simp only [In] at h1
    omega
  | .cons k d r, lo, hi, _, hwf, hlo, ⟨v, kvs', mid, hv, h1, h2, hd, hr⟩ => by
    subst hv
    obtain ⟨L, H, p⟩ := ownM_parts h r mid hi kvs' hwf.2.2 h2 hr
    refine ⟨fun j => if j = k then lo else L j, fun j => if j = k then mid else H j, ?_, ?_, ?_, ?_⟩
    · intro j w u hl hg
      simp only [List.lookup_cons, Members.get] at hl hg
      by_cases hj : j = k
      · subst hj
        simp only [beq_self_eq_true, if_true] at hl hg
        cases hl; cases hg
        simpa using hd
      · rw [if_neg hj] at hg
        rw [show (j == k) = false from by simpa using hj] at hl
        simp only [hj, if_false]
        exact p.own j w u hl hg
    · intro j
      by_cases hj : j = k
      · simp [hj, h2]
      · simp only [hj, if_false]
        exact ⟨Nat.le_trans h1 (p.inside j).1, (p.inside j).2⟩
    · intro i j x hij hx hy
      simp only [In] at hx hy
      have hi' := p.inside i
      have hj' := p.inside j
      by_cases hik : i = k
      · by_cases hjk : j = k
        · exact hij (hik.trans hjk.symm)
        · simp only [hik, hjk, if_true, if_false] at hx hy; omega
      · by_cases hjk : j = k
        · simp only [hik, hjk, if_true, if_false] at hx hy; omega
        · simp only [hik, hjk, if_false] at hx hy
          exact p.apart i j x hij hx hy
    · refine ⟨v, kvs', rfl, by simpa using own_holds h d lo mid v hd, holdsSM_mono h h r _ _ kvs' (fun j hj x hx => ⟨?_, rfl⟩) p.holds⟩
      have : j ≠ k := by
        rintro rfl
        rw [mem_keys, hwf.1] at hj
        cases hj
      simpa [this] using hx

/-! ### Variables -/

/-- The variables on the heap stand for those of the other model. -/
def VarsS (h : Heap) (S : Nat → Prop) : Vars → List (Bytes × Variable) → Prop
  | [], [] => True
  | (x, d) :: vs, (y, w) :: ws => x = y ∧ w.subs = [] ∧ HoldsS h S w.value d ∧ VarsS h S vs ws
  | _, _ => False

theorem varsS_mono (h h' : Heap) (S T : Nat → Prop) (hs : ∀ x, S x → T x ∧ h'[x]? = h[x]?) : ∀ (vs : Vars) (ws : List (Bytes × Variable)),
    VarsS h S vs ws → VarsS h' T vs ws
  | [], [], _ => trivial
  | [], _ :: _, hv => hv.elim
  | _ :: _, [], hv => hv.elim
  | (_, d) :: vs, (_, w) :: ws, ⟨h1, h2, h3, h4⟩ => ⟨h1, h2, holdsS_mono h h' d S T w.value hs h3, varsS_mono h h' S T hs vs ws h4⟩

theorem varsS_lookup (h : Heap) (S : Nat → Prop) (x : Bytes) : ∀ (vs : Vars) (ws : List (Bytes × Variable)), VarsS h S vs ws →
    (vs.lookup x = none ∧ ws.lookup x = none) ∨ ∃ d w, vs.lookup x = some d ∧ ws.lookup x = some w ∧ w.subs = [] ∧ HoldsS h S w.value d
  | [], [], _ => Or.inl ⟨rfl, rfl⟩
  | [], _ :: _, hv => hv.elim
  | _ :: _, [], hv => hv.elim
  | (y, d) :: vs, (_, w) :: ws, ⟨rfl, h2, h3, h4⟩ => by
    simp only [List.lookup_cons]
    by_cases hx : x = y
    · subst hx
      simp only [beq_self_eq_true]
      exact Or.inr ⟨d, w, rfl, rfl, h2, h3⟩
    · simp only [show (x == y) = false from by simpa using hx]
      exact varsS_lookup h S x vs ws h4

/-! ### Both models step by step -/

/-- With fuel enough, the model with the heap does what the other does; `good` relates what they give. -/
def Post {γ : Type} (run : Nat → Run Store) (res : Res γ) (good : γ → Store → Prop) : Prop :=
  match res with
  | .ok r => ∃ (s : Store) (N : Nat), (∀ n ≥ N, run n = .ok s) ∧ good r s
  | .panic => ∃ N, ∀ n ≥ N, run n = .panic
  | .fatal => ∃ N, ∀ n ≥ N, run n = .fatal
  | .keyVar => True

theorem post_succ {γ : Type} {run run' : Nat → Run Store} {res : Res γ} {good : γ → Store → Prop} (h : ∀ n, run' (n + 1) = run n)
    (hp : Post run res good) : Post run' res good := by
  have key : ∀ (N n : Nat), n ≥ N + 1 → ∃ j, j ≥ N ∧ run' n = run j := by
    intro N n hn
    obtain ⟨n, rfl⟩ : ∃ k, n = k + 1 := ⟨n - 1, by omega⟩
    exact ⟨n, by omega, h n⟩
  cases res with
  | ok r =>
    obtain ⟨s, N, hN, hg⟩ := hp
    exact ⟨s, N + 1, fun n hn => by obtain ⟨j, hj, e⟩ := key N n hn; rw [e, hN j hj], hg⟩
  | panic =>
    obtain ⟨N, hN⟩ := hp
    exact ⟨N + 1, fun n hn => by obtain ⟨j, hj, e⟩ := key N n hn; rw [e, hN j hj]⟩
  | fatal =>
    obtain ⟨N, hN⟩ := hp
    exact ⟨N + 1, fun n hn => by obtain ⟨j, hj, e⟩ := key N n hn; rw [e, hN j hj]⟩
  | keyVar => trivial

theorem post_bind {γ δ : Type} {run : Nat → Run Store} {f : Nat → Store → Run Store} {res : Res γ} {g : γ → Res δ}
    {good : γ → Store → Prop} {good' : δ → Store → Prop} (h : Post run res good)
    (hf : ∀ r s, good r s → Post (fun n => f n s) (g r) good') : Post (fun n => (run n).bind (f n)) (res.bind g) good' := by
  cases res with
  | ok r =>
    obtain ⟨s, N, hN, hg⟩ := h
    have h2 := hf r s hg
    simp only [Res.bind]
    cases hr : g r with
    | ok q =>
      rw [hr] at h2
      obtain ⟨t, M, hM, hg'⟩ := h2
      exact ⟨t, N + M, fun n hn => by show (run n).bind (f n) = _; rw [hN n (by omega)]; exact hM n (by omega), hg'⟩
    | panic =>
      rw [hr] at h2
      obtain ⟨M, hM⟩ := h2
      exact ⟨N + M, fun n hn => by show (run n).bind (f n) = _; rw [hN n (by omega)]; exact hM n (by omega)⟩
    | fatal =>
      rw [hr] at h2
      obtain ⟨M, hM⟩ := h2
      exact ⟨N + M, fun n hn => by show (run n).bind (f n) = _; rw [hN n (by omega)]; exact hM n (by omega)⟩
    | keyVar => trivial
  | panic =>
    obtain ⟨N, hN⟩ := h
    exact ⟨N, fun n hn => by show (run n).bind (f n) = _; rw [hN n hn]; rfl⟩
  | fatal =>
    obtain ⟨N, hN⟩ := h
    exact ⟨N, fun n hn => by show (run n).bind (f n) = _; rw [hN n hn]; rfl⟩
  | keyVar => trivial

theorem post_map {γ δ : Type} {run : Nat → Run Store} {res : Res γ} {g : γ → δ} {good : γ → Store → Prop} {good' : δ → Store → Prop}
    (h : Post run res good) (hf : ∀ r s, good r s → good' (g r) s) : Post run (res.bind fun r => .ok (g r)) good' := by
  cases res with
  | ok r =>
    obtain ⟨s, N, hN, hg⟩ := h
    exact ⟨s, N, hN, hf r s hg⟩
  | panic => exact h
  | fatal => exact h
  | keyVar => trivial

theorem post_ok {γ : Type} {run : Nat → Run Store} {r : γ} {good : γ → Store → Prop} (s : Store) (h : ∀ n, run (n + 1) = .ok s)
    (hg : good r s) : Post run (.ok r) good :=
  ⟨s, 1, fun n hn => by obtain ⟨n, rfl⟩ : ∃ k, n = k + 1 := ⟨n - 1, by omega⟩; exact h n, hg⟩

theorem bind_post (s : Store) (S T : Nat → Prop) (vars : Vars) (x : Bytes) (v : V) (d : Doc) (hv : VarsS s.heap S vars s.vars)
    (hd : HoldsS s.heap T v d) :
    Post (fun n => bindVar n s x v) (bind vars x d) (fun vars' s' => s'.heap = s.heap ∧ VarsS s.heap (fun y => S y ∨ T y) vars' s'.vars) := by
  unfold bind
  rcases varsS_lookup s.heap S x vars s.vars hv with ⟨h1, h2⟩ | ⟨w, u, h1, h2, h3, h4⟩
  · rw [h1]
    refine post_ok (s.setVar x ⟨v, []⟩) (fun n => by simp only [bindVar, h2]) ⟨rfl, ?_⟩
    exact ⟨rfl, rfl, holdsS_mono _ _ d T _ v (fun y hy => ⟨Or.inr hy, rfl⟩) hd, varsS_mono _ _ S _ (fun y hy => ⟨Or.inl hy, rfl⟩) _ _ hv⟩
  · rw [h1]
    obtain ⟨N, hN⟩ := read_holds s.heap w u.value (holdsS_holds _ w S _ h4)
    obtain ⟨M, hM⟩ := read_holds s.heap d v (holdsS_holds _ d T _ hd)
    have key : ∀ n ≥ N + M + 1, bindVar n s x v = if deepEqual w d then .ok s else .fatal := by
      intro n hn
      obtain ⟨n, rfl⟩ : ∃ k, n = k + 1 := ⟨n - 1, by omega⟩
      simp only [bindVar, h2, h3, hN n (by omega), hM n (by omega)]
    simp only
    split
    · rename_i he
      exact ⟨s, N + M + 1, fun n hn => by show bindVar n s x v = _; rw [key n hn, if_pos he], rfl, varsS_mono _ _ S _ (fun y hy => ⟨Or.inl hy, rfl⟩) _ _ hv⟩
    · rename_i he
      exact ⟨N + M + 1, fun n hn => by show bindVar n s x v = _; rw [key n hn, if_neg he]⟩

/-- What both models give for a document: nothing is changed outside, the values are the same, and the variables are too. -/
def Good (s : Store) (v w : V) (S : Nat → Prop) (elo ehi alo ahi : Nat) (r : Vars × Doc × Doc) (s' : Store) : Prop :=
  (∀ x, ¬ In elo ehi x → ¬ In alo ahi x → s'.heap[x]? = s.heap[x]?) ∧ HoldsS s'.heap (fun x => In elo ehi x ∨ In alo ahi x) v r.2.1 ∧
  HoldsS s'.heap (In alo ahi) w r.2.2 ∧ VarsS s'.heap (fun x => S x ∨ In alo ahi x) r.1 s'.vars

/-- `Good` for elements. -/
def GoodL (s : Store) (vs ws : List V) (S : Nat → Prop) (elo ehi alo ahi : Nat) (r : Vars × Items × Items) (s' : Store) : Prop :=
  (∀ x, ¬ In elo ehi x → ¬ In alo ahi x → s'.heap[x]? = s.heap[x]?) ∧ HoldsSL s'.heap (fun x => In elo ehi x ∨ In alo ahi x) vs r.2.1 ∧
  HoldsSL s'.heap (In alo ahi) ws r.2.2 ∧ VarsS s'.heap (fun x => S x ∨ In alo ahi x) r.1 s'.vars

/-- Before the turn of a key. -/
structure Turn (s : Store) (vars : Vars) (pre kvsR kvsA : List (Bytes × V)) (acur : Members) (c mid ca : Nat) (L H : Bytes → Nat)
    (S : Nat → Prop) (r : Members) : Prop where
  atE : s.heap[c]? = some (pre ++ kvsR)
  ownE : OwnM s.heap kvsR mid c r
  fresh : ∀ k ∈ r.keys, k ∉ pre.map Prod.fst
  atA : s.heap[ca]? = some kvsA
  holdsA : HoldsSM s.heap (fun k => In (L k) (H k)) kvsA acur
  nodup : acur.keys.Nodup
  own : ∀ k ∈ r.keys, ∀ v d, kvsA.lookup k = some v → acur.get k = some d → Own s.heap v (L k) (H k) d ∧ d.WF
  apart : ∀ j k x, j ≠ k → In (L j) (H j) x → In (L k) (H k) x → False
  away : ∀ k x, In (L k) (H k) x → x ≠ ca ∧ x ≠ c ∧ ¬ In mid c x
  le : mid ≤ c
  ne : ca ≠ c
  out : ¬ In mid c ca
  vars : VarsS s.heap S vars s.vars
  free : ∀ x, S x → x ≠ c ∧ x ≠ ca ∧ ¬ In mid c x ∧ ∀ k ∈ r.keys, ¬ In (L k) (H k) x

/-- After the turn of the key `k`. -/
structure Turned (s : Store) (pre kvsR kvsA : List (Bytes × V)) (acur : Members) (c mid mid' ca : Nat) (L H : Bytes → Nat)
    (S : Nat → Prop) (k : Bytes) (r : Vars × Doc × Members) (s' : Store) (v' : V) (kvsA' : List (Bytes × V)) : Prop where
  atE : s'.heap[c]? = some (pre ++ (k, v') :: kvsR)
  holdsE : HoldsS s'.heap (fun x => In mid mid' x ∨ In (L k) (H k) x) v' r.2.1
  atA : s'.heap[ca]? = some kvsA'
  holdsA : HoldsSM s'.heap (fun k => In (L k) (H k)) kvsA' r.2.2
  nodup : r.2.2.keys.Nodup
  others : ∀ j, j ≠ k → kvsA'.lookup j = kvsA.lookup j ∧ r.2.2.get j = acur.get j
  agree : ∀ x, x ≠ c → x ≠ ca → ¬ In mid mid' x → ¬ In (L k) (H k) x → s'.heap[x]? = s.heap[x]?
  vars : VarsS s'.heap (fun x => S x ∨ In (L k) (H k) x) r.1 s'.vars

/-- After the turns of all keys of `r`. -/
structure Done (s : Store) (pre : List (Bytes × V)) (c mid ca : Nat) (L H : Bytes → Nat) (S : Nat → Prop) (m : Members)
    (r : Vars × Members × Members) (s' : Store) (kvsR' kvsA' : List (Bytes × V)) : Prop where
  atE : s'.heap[c]? = some (pre ++ kvsR')
  holdsE : HoldsSM s'.heap (fun k x => In mid c x ∨ In (L k) (H k) x) kvsR' r.2.1
  atA : s'.heap[ca]? = some kvsA'
  holdsA : HoldsSM s'.heap (fun k => In (L k) (H k)) kvsA' r.2.2
  agree : ∀ x, x ≠ c → x ≠ ca → ¬ In mid c x → (∀ k ∈ m.keys, ¬ In (L k) (H k) x) → s'.heap[x]? = s.heap[x]?
  vars : VarsS s'.heap (fun x => S x ∨ ∃ k ∈ m.keys, In (L k) (H k) x) r.1 s'.vars

theorem set_at (s : Store) (a : Nat) (k : Bytes) (v : V) (kvs : List (Bytes × V)) (h : s.heap[a]? = some kvs) :
    (s.set a k v).heap[a]? = some (assocSet kvs k v) := by
  simp [Store.set, h]

theorem set_other (s : Store) (a : Nat) (k : Bytes) (v : V) (x : Nat) (h : x ≠ a) : (s.set a k v).heap[x]? = s.heap[x]? := by
  simp [Store.set, Ne.symm h]

theorem get_at (s : Store) (a : Nat) (k : Bytes) (kvs : List (Bytes × V)) (h : s.heap[a]? = some kvs) : s.get a k = kvs.lookup k := by
  simp [Store.get, List.getD_eq_getElem?_getD, h]

theorem lookup_mid (pre : List (Bytes × V)) (k : Bytes) (v : V) (l : List (Bytes × V)) (h : k ∉ pre.map Prod.fst) :
    (pre ++ (k, v) :: l).lookup k = some v := by
  induction pre with
  | nil => simp
  | cons p pre ih =>
    obtain ⟨x, u⟩ := p
    simp only [List.map_cons, List.mem_cons, not_or] at h
    rw [List.cons_append, List.lookup_cons, show (k == x) = false from by simpa using h.1]
    exact ih h.2

theorem assocSet_mid (pre : List (Bytes × V)) (k : Bytes) (v u : V) (l : List (Bytes × V)) (h : k ∉ pre.map Prod.fst) :
    assocSet (pre ++ (k, v) :: l) k u = pre ++ (k, u) :: l := by
  induction pre with
  | nil => simp [assocSet]
  | cons p pre ih =>
    obtain ⟨x, w⟩ := p
    simp only [List.map_cons, List.mem_cons, not_or] at h
    rw [List.cons_append, assocSet, if_neg h.1, ih h.2]
    rfl

/-- One turn; `ih` is what is known of the value below. -/
theorem turn_post (s : Store) (vars : Vars) (pre kvsR kvsA : List (Bytes × V)) (acur : Members) (c mid mid' ca : Nat) (L H : Bytes → Nat)
    (S : Nat → Prop) (k : Bytes) (v : V) (e : Doc) (r : Members) (t : Turn s vars pre ((k, v) :: kvsR) kvsA acur c mid ca L H S (.cons k e r))
    (hmid' : mid' ≤ c) (hv : Own s.heap v mid mid' e)
    (ih : ∀ (d : Doc) (w : V), d.WF → Own s.heap w (L k) (H k) d →
      Post (fun n => substK n s v w) (subst vars e d) (Good s v w S mid mid' (L k) (H k))) :
    Post (fun n => keyK n s c ca k) (memberStep (fun d => subst vars e d) vars k e acur)
      (fun q s' => ∃ v' kvsA', Turned s pre kvsR kvsA acur c mid mid' ca L H S k q s' v' kvsA') := by
  unfold memberStep
  by_cases hk : isVar k = true
  · rw [if_pos hk]; trivial
  rw [if_neg hk]
  have hk : isVar k = false := by simpa using hk
  have hmem : k ∈ (Members.cons k e r).keys := by simp [Members.keys]
  have hgE : s.get c k = some v := by rw [get_at s c k _ t.atE, lookup_mid _ _ _ _ (t.fresh k hmem)]
  have hgA : s.get ca k = kvsA.lookup k := get_at s ca k _ t.atA
  -- nothing happens
  have same : ∃ v' kvsA', Turned s pre kvsR kvsA acur c mid mid' ca L H S k (vars, e, acur) s v' kvsA' :=
    ⟨v, kvsA, t.atE, holdsS_mono _ _ e _ _ v (fun x hx => ⟨Or.inl hx, rfl⟩) (own_holds _ e mid mid' v hv), t.atA, t.holdsA, t.nodup,
      fun _ _ => ⟨rfl, rfl⟩, fun _ _ _ _ _ => rfl, varsS_mono _ _ S _ (fun x hx => ⟨Or.inl hx, rfl⟩) _ _ t.vars⟩
  -- the value below is compared
  have below : ∀ (run : Nat → Run Store), (∀ n, run (n + 1) = match s.get ca k with | none => .ok s | some w => substK n s v w) →
      Post run (match acur.get k with
        | none => .ok (vars, e, acur)
        | some d => (subst vars e d).bind fun (vars, e, d) => .ok (vars, e, acur.set k d))
        (fun q s' => ∃ v' kvsA', Turned s pre kvsR kvsA acur c mid mid' ca L H S k q s' v' kvsA') := by
    intro run hrun
    rw [hgA] at hrun
    rcases holdsSM_get s.heap _ k acur kvsA t.holdsA with ⟨h1, h2⟩ | ⟨w, d, h1, h2, h3⟩
    · rw [h2]
      rw [h1] at hrun
      exact post_ok s hrun same
    · rw [h2]
      rw [h1] at hrun
      obtain ⟨hown, hwf⟩ := t.own k hmem w d h1 h2
      refine post_succ hrun ?_
      refine post_map (g := fun q : Vars × Doc × Doc => (q.1, q.2.1, acur.set k q.2.2)) (ih d w hwf hown) ?_
      rintro ⟨vars', e', d'⟩ s' ⟨g1, g2, g3, g4⟩
      have hcA := t.away k
      refine ⟨v, kvsA, ?_, g2, ?_, ?_, set_nodup _ _ _ t.nodup, fun j hj => ⟨rfl, by rw [get_set, if_neg hj]⟩, fun x _ _ h3 h4 => g1 x h3 h4, g4⟩
      · rw [g1 c (by simp only [In]; omega) (fun h => (hcA c h).2.1 rfl)]; exact t.atE
      · rw [g1 ca (fun h => t.out ⟨h.1, Nat.lt_of_lt_of_le h.2 hmid'⟩) (fun h => (hcA ca h).1 rfl)]; exact t.atA
      · refine holdsSM_upd s.heap s'.heap _ k w d' g3 acur kvsA t.nodup (fun j hj hjk x hx => ?_) h1 t.holdsA
        refine g1 x (fun h => ?_) (fun h => t.apart j k x hjk hx h)
        exact (t.away j x hx).2.2 ⟨h.1, Nat.lt_of_lt_of_le h.2 hmid'⟩
  cases e with
  | null =>
    refine ⟨1, fun n hn => ?_⟩
    obtain ⟨n, rfl⟩ : ∃ k, n = k + 1 := ⟨n - 1, by omega⟩
    simp only [keyK, hk, Bool.false_eq_true, if_false, Run.bind, hgE, show v = .null from hv]
  | bool b =>
    refine below _ (fun n => ?_)
    simp only [keyK, hk, Bool.false_eq_true, if_false, Run.bind, hgE, show v = .bool b from hv]
    rfl
  | num b =>
    refine below _ (fun n => ?_)
    simp only [keyK, hk, Bool.false_eq_true, if_false, Run.bind, hgE, show v = .num b from hv]
    rfl
  | arr l =>
    refine below _ (fun n => ?_)
    obtain ⟨vs, h1, _⟩ := hv
    simp only [keyK, hk, Bool.false_eq_true, if_false, Run.bind, hgE, h1]
    rfl
  | obj m =>
    refine below _ (fun n => ?_)
    obtain ⟨a', kvs', h1, _⟩ := hv
    simp only [keyK, hk, Bool.false_eq_true, if_false, Run.bind, hgE, h1]
    rfl
  | str b =>
    have hvb : v = .str b := hv
    by_cases hany : b = anything
    · simp only [hany, if_true]
      refine post_ok (s.set ca k (.str anything)) (fun n => by
        simp only [keyK, hk, Bool.false_eq_true, if_false, Run.bind, hgE, hvb, hany, if_true]) ?_
      refine ⟨v, assocSet kvsA k (.str anything), ?_, ?_, set_at s ca k _ kvsA t.atA, ?_, set_nodup _ _ _ t.nodup, fun j hj => ?_, fun x _ h2 _ _ => set_other s ca k _ x h2, ?_⟩
      · rw [set_other s ca k _ c (Ne.symm t.ne)]; exact t.atE
      · rw [← hany]; exact hvb
      · refine holdsSM_set _ _ k _ (.str anything) rfl acur kvsA ?_
        exact holdsSM_mono _ _ acur _ _ kvsA (fun j _ x hx => ⟨hx, set_other s ca k _ x (t.away j x hx).1⟩) t.holdsA
      · rw [lookup_set, if_neg hj, get_set, if_neg hj]; exact ⟨rfl, rfl⟩
      · exact varsS_mono _ _ S _ (fun x hx => ⟨Or.inl hx, set_other s ca k _ x (t.free x hx).2.1⟩) _ _ t.vars
    · simp only [hany, if_false]
      by_cases hb : isVar b = true
      · simp only [hb, if_true]
        rcases holdsSM_get s.heap _ k acur kvsA t.holdsA with ⟨h1, h2⟩ | ⟨w, d, h1, h2, h3⟩
        · rw [h2]
          exact post_ok s (fun n => by
            simp only [keyK, hk, Bool.false_eq_true, if_false, Run.bind, hgE, hvb, hany, hgA, h1]) same
        · rw [h2]
          have hset : ∀ x, x ≠ c → (s.set c k w).heap[x]? = s.heap[x]? := fun x hx => set_other s c k w x hx
          have hb1 := bind_post (s.set c k w) S (In (L k) (H k)) vars b w d
            (varsS_mono _ _ S _ (fun x hx => ⟨hx, hset x (t.free x hx).1⟩) _ _ t.vars)
            (holdsS_mono _ _ d _ _ w (fun x hx => ⟨hx, hset x (t.away k x hx).2.1⟩) h3)
          refine post_succ (run := fun n => bindVar n (s.set c k w) b w) (fun n => by
            simp only [keyK, hk, Bool.false_eq_true, if_false, Run.bind, hgE, hvb, hany, hgA, h1, hb, if_true]) ?_
          refine post_map (g := fun vars : Vars => (vars, d, acur)) hb1 ?_
          rintro vars' s' ⟨g1, g2⟩
          refine ⟨w, kvsA, ?_, ?_, ?_, ?_, t.nodup, fun _ _ => ⟨rfl, rfl⟩, fun x h1 _ _ _ => by rw [g1]; exact hset x h1, ?_⟩
          · rw [g1, set_at s c k w _ t.atE, assocSet_mid _ _ _ _ _ (t.fresh k hmem)]
          · rw [g1]
            exact holdsS_mono _ _ d _ _ w (fun x hx => ⟨Or.inr hx, hset x (t.away k x hx).2.1⟩) h3
          · rw [g1, hset ca t.ne]; exact t.atA
          · rw [g1]
            exact holdsSM_mono _ _ acur _ _ kvsA (fun j _ x hx => ⟨hx, hset x (t.away j x hx).2.1⟩) t.holdsA
          · rw [g1]; exact g2
      · simp only [hb, Bool.false_eq_true, if_false]
        refine below _ (fun n => ?_)
        simp only [keyK, hk, Bool.false_eq_true, if_false, Run.bind, hgE, hvb, hany, hb]
        rfl

mutual
theorem subst_post : ∀ (e : Doc), e.WF → ∀ (vars : Vars) (a : Doc), a.WF → ∀ (s : Store) (v w : V) (S : Nat → Prop) (elo ehi alo ahi : Nat),
    Own s.heap v elo ehi e → Own s.heap w alo ahi a → (∀ x, In elo ehi x → In alo ahi x → False) → VarsS s.heap S vars s.vars →
    (∀ x, S x → ¬ In elo ehi x ∧ ¬ In alo ahi x) →
    Post (fun n => substK n s v w) (subst vars e a) (Good s v w S elo ehi alo ahi)
  | .null, _, vars, a, _, s, v, w, S, elo, ehi, alo, ahi, hv, _, _, _, _ => by
    refine ⟨1, fun n hn => ?_⟩
    obtain ⟨n, rfl⟩ : ∃ k, n = k + 1 := ⟨n - 1, by omega⟩
    have hv' : v = .null := hv
    subst hv'
    simp only [substK]
  | .bool b, _, vars, a, _, s, v, w, S, elo, ehi, alo, ahi, hv, hw, _, hvars, _ => by
    have hr : subst vars (.bool b) a = .ok (vars, .bool b, a) := by simp [subst]
    rw [hr]
    have hv' : v = .bool b := hv
    subst hv'
    exact post_ok s (fun n => by simp only [substK]) ⟨fun _ _ _ => rfl, hv, own_holds _ a _ _ w hw,
      varsS_mono _ _ S _ (fun x hx => ⟨Or.inl hx, rfl⟩) _ _ hvars⟩
  | .num b, _, vars, a, _, s, v, w, S, elo, ehi, alo, ahi, hv, hw, _, hvars, _ => by
    have hr : subst vars (.num b) a = .ok (vars, .num b, a) := by simp [subst]
    rw [hr]
    have hv' : v = .num b := hv
    subst hv'
    exact post_ok s (fun n => by simp only [substK]) ⟨fun _ _ _ => rfl, hv, own_holds _ a _ _ w hw,
      varsS_mono _ _ S _ (fun x hx => ⟨Or.inl hx, rfl⟩) _ _ hvars⟩
  | .str b, _, vars, a, _, s, v, w, S, elo, ehi, alo, ahi, hv, hw, _, hvars, _ => by
    have hr : subst vars (.str b) a = .ok (vars, .str b, a) := by simp [subst]
    rw [hr]
    have hv' : v = .str b := hv
    subst hv'
    exact post_ok s (fun n => by simp only [substK]) ⟨fun _ _ _ => rfl, hv, own_holds _ a _ _ w hw,
      varsS_mono _ _ S _ (fun x hx => ⟨Or.inl hx, rfl⟩) _ _ hvars⟩
  | .arr l, hwf, vars, a, hwa, s, v, w, S, elo, ehi, alo, ahi, hv, hw, hdis, hvars, hfree => by
    obtain ⟨vs, rfl, hl⟩ := hv
    have other : (∀ ws, w ≠ .arr ws) → (∀ l', a ≠ .arr l') →
        Post (fun n => substK n s (.arr vs) w) (subst vars (.arr l) a) (Good s (.arr vs) w S elo ehi alo ahi) := by
      intro h1 h2
      have hr : subst vars (.arr l) a = .ok (vars, .arr l, a) := by
        cases a <;> simp only [subst]
        exact absurd rfl (h2 _)
      rw [hr]
      refine post_ok s (fun n => ?_) ⟨fun _ _ _ => rfl, ⟨vs, rfl, holdsSL_mono _ _ l _ _ vs (fun x hx => ⟨Or.inl hx, rfl⟩) (ownL_holds _ l _ _ vs hl)⟩,
        own_holds _ a _ _ w hw, varsS_mono _ _ S _ (fun x hx => ⟨Or.inl hx, rfl⟩) _ _ hvars⟩
      cases w <;> simp only [substK]
      exact absurd rfl (h1 _)
    cases a with
    | arr l' =>
      obtain ⟨ws, rfl, hl'⟩ := hw
      refine post_succ (run := fun n => itemsK n s vs ws) (fun n => by simp only [substK]) ?_
      rw [subst]
      refine post_map (g := fun q : Vars × Items × Items => (q.1, Doc.arr q.2.1, Doc.arr q.2.2))
        (items_post l hwf vars l' hwa s vs ws S elo ehi alo ahi hl hl' hdis hvars hfree) ?_
      rintro ⟨vars', e', a'⟩ s' ⟨g1, g2, g3, g4⟩
      exact ⟨g1, ⟨vs, rfl, g2⟩, ⟨ws, rfl, g3⟩, g4⟩
    | null => exact other (by rintro ws rfl; cases hw) (by rintro l' h; cases h)
    | bool b => exact other (by rintro ws rfl; cases hw) (by rintro l' h; cases h)
    | num b => exact other (by rintro ws rfl; cases hw) (by rintro l' h; cases h)
    | str b => exact other (by rintro ws rfl; cases hw) (by rintro l' h; cases h)
    | obj m => exact other (by rintro ws rfl; obtain ⟨_, _, h, _⟩ := hw; cases h) (by rintro l' h; cases h)
  | .obj m, hwf, vars, a, hwa, s, v, w, S, elo, ehi, alo, ahi, hv, hw, hdis, hvars, hfree => by
    have hholds := own_holds _ (.obj m) _ _ v hv
    obtain ⟨c, kvs, rfl, hc1, hc2, hc, hm⟩ := hv
    have other : (∀ b, w ≠ .ref b) → (∀ m', a ≠ .obj m') →
        Post (fun n => substK n s (.ref c) w) (subst vars (.obj m) a) (Good s (.ref c) w S elo ehi alo ahi) := by
      intro h1 h2
      have hr : subst vars (.obj m) a = .ok (vars, .obj m, a) := by
        cases a <;> simp only [subst]
        exact absurd rfl (h2 _)
      rw [hr]
      refine post_ok s (fun n => ?_) ⟨fun _ _ _ => rfl, holdsS_mono _ _ (.obj m) _ _ _ (fun x hx => ⟨Or.inl hx, rfl⟩) hholds,
        own_holds _ a _ _ w hw, varsS_mono _ _ S _ (fun x hx => ⟨Or.inl hx, rfl⟩) _ _ hvars⟩
      cases w <;> simp only [substK]
      exact absurd rfl (h1 _)
    cases a with
    | obj m' =>
      obtain ⟨ca, kvsA, rfl, ha1, ha2, ha, hm'⟩ := hw
      obtain ⟨L, H, p⟩ := ownM_parts s.heap m' alo ca kvsA hwa ha1 hm'
      have hin : ∀ k x, In (L k) (H k) x → In alo ahi x ∧ x < ca := by
        intro k x hx
        have := p.inside k
        simp only [In] at hx ⊢
        omega
      have t : Turn s vars [] kvs kvsA m' c elo ca L H S m := by
        refine ⟨hc, hm, fun _ _ h => (by cases h), ha, p.holds, nodup_keys m' hwa, fun k _ v d h1 h2 => ⟨p.own k v d h1 h2, get_wf m' hwa k d h2⟩,
          p.apart, fun k x hx => ?_, hc1, ?_, ?_, hvars, fun x hx => ?_⟩
        · obtain ⟨h1, h2⟩ := hin k x hx
          refine ⟨Nat.ne_of_lt h2, ?_, fun h => hdis x ⟨h.1, Nat.lt_trans h.2 hc2⟩ h1⟩
          rintro rfl
          exact hdis _ ⟨hc1, hc2⟩ h1
        · rintro rfl
          exact hdis _ ⟨hc1, hc2⟩ ⟨ha1, ha2⟩
        · exact fun h => hdis _ ⟨h.1, Nat.lt_trans h.2 hc2⟩ ⟨ha1, ha2⟩
        · obtain ⟨h1, h2⟩ := hfree x hx
          refine ⟨?_, ?_, ?_, fun k _ h => h2 (hin k x h).1⟩
          · rintro rfl; exact h1 ⟨hc1, hc2⟩
          · rintro rfl; exact h2 ⟨ha1, ha2⟩
          · exact fun h => h1 ⟨h.1, Nat.lt_trans h.2 hc2⟩
      refine post_succ (run := fun n => keysK n s c ca m.keys) (fun n => by
        simp only [substK, List.getD_eq_getElem?_getD, hc, Option.getD_some]
        rw [holdsM_keys s.heap m kvs (holdsSM_holds _ m _ kvs (ownM_holds _ m elo c kvs hm))]) ?_
      rw [subst]
      refine post_map (g := fun q : Vars × Members × Members => (q.1, Doc.obj q.2.1, Doc.obj q.2.2))
        (members_post m hwf vars m' s [] kvs kvsA c elo ca L H S t) ?_
      rintro ⟨vars', e', a'⟩ s' ⟨kvsR', kvsA', g⟩
      refine ⟨fun x h1 h2 => ?_, ?_, ?_, ?_⟩
      · refine g.agree x ?_ ?_ ?_ ?_
        · rintro rfl; exact h1 ⟨hc1, hc2⟩
        · rintro rfl; exact h2 ⟨ha1, ha2⟩
        · exact fun h => h1 ⟨h.1, Nat.lt_trans h.2 hc2⟩
        · exact fun k _ h => h2 (hin k x h).1
      · refine ⟨c, kvsR', rfl, Or.inl ⟨hc1, hc2⟩, g.atE, holdsSM_mono _ _ e' _ _ kvsR' (fun k _ x hx => ⟨?_, rfl⟩) g.holdsE⟩
        rcases hx with hx | hx
        · exact Or.inl ⟨hx.1, Nat.lt_trans hx.2 hc2⟩
        · exact Or.inr (hin k x hx).1
      · exact ⟨ca, kvsA', rfl, ⟨ha1, ha2⟩, g.atA, holdsSM_mono _ _ a' _ _ kvsA' (fun k _ x hx => ⟨(hin k x hx).1, rfl⟩) g.holdsA⟩
      · refine varsS_mono _ _ _ _ (fun x hx => ⟨?_, rfl⟩) _ _ g.vars
        rcases hx with hx | ⟨k, _, hx⟩
        · exact Or.inl hx
        · exact Or.inr (hin k x hx).1
    | null => exact other (by rintro ws rfl; cases hw) (by rintro l' h; cases h)
    | bool b => exact other (by rintro ws rfl; cases hw) (by rintro l' h; cases h)
    | num b => exact other (by rintro ws rfl; cases hw) (by rintro l' h; cases h)
    | str b => exact other (by rintro ws rfl; cases hw) (by rintro l' h; cases h)
    | arr l => exact other (by rintro ws rfl; obtain ⟨_, h, _⟩ := hw; cases h) (by rintro l' h; cases h)
theorem items_post : ∀ (e : Items), e.WF → ∀ (vars : Vars) (a : Items), a.WF → ∀ (s : Store) (vs ws : List V) (S : Nat → Prop)
    (elo ehi alo ahi : Nat), OwnL s.heap vs elo ehi e → OwnL s.heap ws alo ahi a → (∀ x, In elo ehi x → In alo ahi x → False) → VarsS s.heap S vars s.vars →
    (∀ x, S x → ¬ In elo ehi x ∧ ¬ In alo ahi x) →
    Post (fun n => itemsK n s vs ws) (substItems vars e a) (GoodL s vs ws S elo ehi alo ahi)
  | .nil, _, vars, a, _, s, vs, ws, S, elo, ehi, alo, ahi, hv, hw, _, hvars, _ => by
    rw [substItems]
    exact post_ok s (fun n => by rw [show vs = [] from hv, itemsK]) ⟨fun _ _ _ => rfl, hv, ownL_holds _ a _ _ ws hw,
      varsS_mono _ _ S _ (fun x hx => ⟨Or.inl hx, rfl⟩) _ _ hvars⟩
  | .cons e r, hwf, vars, .nil, _, s, vs, ws, S, elo, ehi, alo, ahi, hv, hw, _, hvars, _ => by
    obtain ⟨v, vs', mid, rfl, _⟩ := hv
    rw [substItems]
    refine ⟨1, fun n hn => ?_⟩
    obtain ⟨n, rfl⟩ : ∃ k, n = k + 1 := ⟨n - 1, by omega⟩
    rw [show ws = [] from hw]
    simp only [itemsK]
  | .cons e r, hwf, vars, .cons a b, hwa, s, vs, ws, S, elo, ehi, alo, ahi, hv, hw, hdis, hvars, hfree => by
    obtain ⟨v, vs', mid, rfl, hm1, hm2, hv1, hv2⟩ := hv
    obtain ⟨w, ws', nid, rfl, hn1, hn2, hw1, hw2⟩ := hw
    have hdis' : ∀ x, ¬ (elo ≤ x ∧ x < ehi ∧ alo ≤ x ∧ x < ahi) := fun x h => hdis x ⟨h.1, h.2.1⟩ h.2.2
    refine post_succ (run := fun n => (substK n s v w).bind fun s => itemsK n s vs' ws') (fun n => by simp only [itemsK]) ?_
    rw [substItems]
    refine post_bind (f := fun n s => itemsK n s vs' ws')
      (subst_post e hwf.1 vars a hwa.1 s v w S elo mid alo nid hv1 hw1
        (fun x h1 h2 => hdis x ⟨h1.1, Nat.lt_of_lt_of_le h1.2 hm2⟩ ⟨h2.1, Nat.lt_of_lt_of_le h2.2 hn2⟩) hvars (fun x hx => ?_)) ?_
    · obtain ⟨h1, h2⟩ := hfree x hx
      simp only [In] at h1 h2 ⊢
      omega
    · rintro ⟨vars', e', a'⟩ s' ⟨g1, g2, g3, g4⟩
      have hagE : ∀ x, In mid ehi x → s'.heap[x]? = s.heap[x]? := fun x hx =>
        g1 x (by simp only [In] at hx ⊢; omega) (by have := hdis' x; simp only [In] at hx this ⊢; omega)
      have hagA : ∀ x, In nid ahi x → s'.heap[x]? = s.heap[x]? := fun x hx =>
        g1 x (by have := hdis' x; simp only [In] at hx this ⊢; omega) (by simp only [In] at hx ⊢; omega)
      refine post_map (g := fun q : Vars × Items × Items => (q.1, Items.cons e' q.2.1, Items.cons a' q.2.2))
        (items_post r hwf.2 vars' b hwa.2 s' vs' ws' (fun x => S x ∨ In alo nid x) mid ehi nid ahi (ownL_mono _ _ r _ _ vs' hagE hv2)
          (ownL_mono _ _ b _ _ ws' hagA hw2)
          (fun x h1 h2 => hdis x ⟨Nat.le_trans hm1 h1.1, h1.2⟩ ⟨Nat.le_trans hn1 h2.1, h2.2⟩) g4 (fun x hx => ?_)) ?_
      · rcases hx with hx | hx
        · obtain ⟨h1, h2⟩ := hfree x hx
          simp only [In] at h1 h2 ⊢
          omega
        · have := hdis' x
          simp only [In] at hx this ⊢
          omega
      · rintro ⟨vars'', r', b'⟩ s'' ⟨q1, q2, q3, q4⟩
        refine ⟨fun x h1 h2 => ?_, ⟨v, vs', rfl, ?_, ?_⟩, ⟨w, ws', rfl, ?_, ?_⟩, ?_⟩
        · simp only [In] at h1 h2
          rw [q1 x (by simp only [In]; omega) (by simp only [In]; omega), g1 x (by simp only [In]; omega) (by simp only [In]; omega)]
        · refine holdsS_mono _ _ e' _ _ v (fun x hx => ⟨?_, q1 x ?_ ?_⟩) g2 <;> have := hdis' x <;> simp only [In] at hx this ⊢ <;> omega
        · refine holdsSL_mono _ _ r' _ _ vs' (fun x hx => ⟨?_, rfl⟩) q2
          simp only [In] at hx ⊢
          omega
        · refine holdsS_mono _ _ a' _ _ w (fun x hx => ⟨?_, q1 x ?_ ?_⟩) g3 <;> have := hdis' x <;> simp only [In] at hx this ⊢ <;> omega
        · refine holdsSL_mono _ _ b' _ _ ws' (fun x hx => ⟨?_, rfl⟩) q3
          simp only [In] at hx ⊢
          omega
        · refine varsS_mono _ _ _ _ (fun x hx => ⟨?_, rfl⟩) _ _ q4
          rcases hx with (hx | hx) | hx
          · exact Or.inl hx
          · exact Or.inr ⟨hx.1, Nat.lt_of_lt_of_le hx.2 hn2⟩
          · exact Or.inr ⟨Nat.le_trans hn1 hx.1, hx.2⟩
theorem members_post : ∀ (e : Members), e.WF → ∀ (vars : Vars) (a : Members) (s : Store) (pre kvsR kvsA : List (Bytes × V)) (c mid ca : Nat)
    (L H : Bytes → Nat) (S : Nat → Prop), Turn s vars pre kvsR kvsA a c mid ca L H S e →
    Post (fun n => keysK n s c ca e.keys) (substMembers vars e a) (fun q s' => ∃ kvsR' kvsA', Done s pre c mid ca L H S e q s' kvsR' kvsA')
  | .nil, _, vars, a, s, pre, kvsR, kvsA, c, mid, ca, L, H, S, t => by
    rw [substMembers]
    refine post_ok s (fun n => by simp only [Members.keys, keysK]) ⟨kvsR, kvsA, t.atE, ?_, t.atA, t.holdsA, fun _ _ _ _ _ => rfl,
      varsS_mono _ _ S _ (fun x hx => ⟨Or.inl hx, rfl⟩) _ _ t.vars⟩
    exact t.ownE
  | .cons k e r, hwf, vars, a, s, pre, kvsR, kvsA, c, mid, ca, L, H, S, t => by
    obtain ⟨v, kvs', mid', rfl, hm1, hm2, hv, hr⟩ := t.ownE
    refine post_succ (run := fun n => (keyK n s c ca k).bind fun s => keysK n s c ca r.keys) (fun n => by simp only [Members.keys, keysK]) ?_
    rw [substMembers]
    have hmem : k ∈ (Members.cons k e r).keys := by simp [Members.keys]
    have hsub : ∀ j ∈ r.keys, j ∈ (Members.cons k e r).keys := fun j hj => by simp [Members.keys, hj]
    have hne : ∀ j ∈ r.keys, j ≠ k := by
      rintro j hj rfl
      rw [mem_keys, hwf.1] at hj
      cases hj
    refine post_bind (f := fun n s => keysK n s c ca r.keys)
      (turn_post s vars pre kvs' kvsA a c mid mid' ca L H S k v e r t hm2 hv (fun d w hd hw => ?_)) ?_
    · refine subst_post e hwf.2.1 vars d hd s v w S mid mid' (L k) (H k) hv hw ?_ t.vars (fun x hx => ?_)
      · exact fun x h1 h2 => (t.away k x h2).2.2 ⟨h1.1, Nat.lt_of_lt_of_le h1.2 hm2⟩
      · obtain ⟨_, _, h3, h4⟩ := t.free x hx
        exact ⟨fun h => h3 ⟨h.1, Nat.lt_of_lt_of_le h.2 hm2⟩, h4 k hmem⟩
    · rintro ⟨vars', e', a'⟩ s' ⟨v', kvsA', g⟩
      have hout : ∀ x, x ≠ c → x ≠ ca → ¬ In mid c x → (∀ j ∈ (Members.cons k e r).keys, ¬ In (L j) (H j) x) → s'.heap[x]? = s.heap[x]? :=
        fun x h1 h2 h3 h4 => g.agree x h1 h2 (fun h => h3 ⟨h.1, Nat.lt_of_lt_of_le h.2 hm2⟩) (h4 k hmem)
      have hrest : ∀ x, In mid' c x → s'.heap[x]? = s.heap[x]? := by
        intro x hx
        have hx' : In mid c x := ⟨Nat.le_trans hm1 hx.1, hx.2⟩
        refine g.agree x (Nat.ne_of_lt hx.2) ?_ (fun h => ?_) (fun h => (t.away k x h).2.2 hx')
        · rintro rfl; exact t.out hx'
        · simp only [In] at h hx; omega
      have hpart : ∀ j, j ≠ k → ∀ x, In (L j) (H j) x → s'.heap[x]? = s.heap[x]? := by
        intro j hj x hx
        obtain ⟨h1, h2, h3⟩ := t.away j x hx
        exact g.agree x h2 h1 (fun h => h3 ⟨h.1, Nat.lt_of_lt_of_le h.2 hm2⟩) (fun h => t.apart j k x hj hx h)
      have t' : Turn s' vars' (pre ++ [(k, v')]) kvs' kvsA' a' c mid' ca L H (fun x => S x ∨ In (L k) (H k) x) r := by
        refine ⟨by rw [g.atE]; simp, ownM_mono _ _ r _ _ kvs' hrest hr, fun j hj => ?_, g.atA, g.holdsA, g.nodup, fun j hj w d h1 h2 => ?_,
          t.apart, fun j x hx => ?_, hm2, t.ne, fun h => t.out ⟨Nat.le_trans hm1 h.1, h.2⟩, g.vars, fun x hx => ?_⟩
        · have h1 := t.fresh j (hsub j hj)
          have h2 := hne j hj
          simp only [List.map_append, List.map_cons, List.map_nil, List.mem_append, List.mem_singleton, not_or]
          exact ⟨h1, h2⟩
        · obtain ⟨o1, o2⟩ := g.others j (hne j hj)
          rw [o1] at h1
          rw [o2] at h2
          obtain ⟨q1, q2⟩ := t.own j (hsub j hj) w d h1 h2
          exact ⟨own_mono _ _ d _ _ w (hpart j (hne j hj)) q1, q2⟩
        · obtain ⟨h1, h2, h3⟩ := t.away j x hx
          exact ⟨h1, h2, fun h => h3 ⟨Nat.le_trans hm1 h.1, h.2⟩⟩
        · rcases hx with hx | hx
          · obtain ⟨h1, h2, h3, h4⟩ := t.free x hx
            exact ⟨h1, h2, fun h => h3 ⟨Nat.le_trans hm1 h.1, h.2⟩, fun j hj => h4 j (hsub j hj)⟩
          · obtain ⟨h1, h2, h3⟩ := t.away k x hx
            exact ⟨h2, h1, fun h => h3 ⟨Nat.le_trans hm1 h.1, h.2⟩, fun j hj h => t.apart j k x (hne j hj) h hx⟩
      refine post_map (g := fun q : Vars × Members × Members => (q.1, Members.cons k e' q.2.1, q.2.2))
        (members_post r hwf.2.2 vars' a' s' (pre ++ [(k, v')]) kvs' kvsA' c mid' ca L H _ t') ?_
      rintro ⟨vars'', r', a''⟩ s'' ⟨kvsR'', kvsA'', q⟩
      refine ⟨(k, v') :: kvsR'', kvsA'', by rw [q.atE]; simp, ⟨v', kvsR'', rfl, ?_, ?_⟩, q.atA, q.holdsA, fun x h1 h2 h3 h4 => ?_, ?_⟩
      · refine holdsS_mono _ _ e' _ _ v' (fun x hx => ⟨?_, ?_⟩) g.holdsE
        · rcases hx with hx | hx
          · exact Or.inl ⟨hx.1, Nat.lt_of_lt_of_le hx.2 hm2⟩
          · exact Or.inr hx
        · rcases hx with hx | hx
          · have hx' : In mid c x := ⟨hx.1, Nat.lt_of_lt_of_le hx.2 hm2⟩
            refine q.agree x (Nat.ne_of_lt hx'.2) ?_ (fun h => ?_) (fun j _ h => (t.away j x h).2.2 hx')
            · rintro rfl; exact t.out hx'
            · simp only [In] at h hx; omega
          · obtain ⟨h1, h2, h3⟩ := t.away k x hx
            exact q.agree x h2 h1 (fun h => h3 ⟨Nat.le_trans hm1 h.1, h.2⟩) (fun j hj h => t.apart j k x (hne j hj) h hx)
      · refine holdsSM_mono _ _ r' _ _ kvsR'' (fun j _ x hx => ⟨?_, rfl⟩) q.holdsE
        rcases hx with hx | hx
        · exact Or.inl ⟨Nat.le_trans hm1 hx.1, hx.2⟩
        · exact Or.inr hx
      · rw [q.agree x h1 h2 (fun h => h3 ⟨Nat.le_trans hm1 h.1, h.2⟩) (fun j hj => h4 j (hsub j hj)), hout x h1 h2 h3 h4]
      · refine varsS_mono _ _ _ _ (fun x hx => ⟨?_, rfl⟩) _ _ q.vars
        rcases hx with (hx | hx) | ⟨j, hj, hx⟩
        · exact Or.inl hx
        · exact Or.inr ⟨k, hmem, hx⟩
        · exact Or.inr ⟨j, hsub j hj, hx⟩
end

/-- C59 and C124: both models agree on templates without placeholders as keys. -/
theorem models_agree (e a : Doc) (he : e.WF) (ha : a.WF) (h : jsonEqual e a ≠ .unmodelled) :
    ∃ N, ∀ fuel ≥ N, jsonEqualK fuel e a = some (jsonEqual e a) := by
  obtain ⟨⟨x, hx⟩, _⟩ := load_holds e (load a []).2
  have hA := load_own a []
  have hE := load_own e (load a []).2
  have hA' : Own (load e (load a []).2).2 (load a []).1 0 (load a []).2.length a := by
    rw [hx]
    exact own_mono _ _ a _ _ _ (fun y hy => agree_append _ _ _ y hy) hA
  have hp := subst_post e he [] a ha ⟨(load e (load a []).2).2, []⟩ (load e (load a []).2).1 (load a []).1 (fun _ => False) _ _ _ _ hE hA'
    (fun y h1 h2 => by simp only [In] at h1 h2; omega) trivial (fun _ h => h.elim)
  unfold jsonEqual at h ⊢
  unfold jsonEqualK
  simp only
  cases hr : subst [] e a with
  | ok r =>
    obtain ⟨vars, e', a'⟩ := r
    rw [hr] at hp
    obtain ⟨s, N, hN, _, g2, g3, _⟩ := hp
    obtain ⟨R1, hR1⟩ := read_holds s.heap e' _ (holdsS_holds _ _ _ _ g2)
    obtain ⟨R2, hR2⟩ := read_holds s.heap a' _ (holdsS_holds _ _ _ _ g3)
    refine ⟨N + R1 + R2, fun fuel hf => ?_⟩
    have hn : substK fuel ⟨(load e (load a []).2).2, []⟩ (load e (load a []).2).1 (load a []).1 = .ok s := hN fuel (by omega)
    rw [hn]
    simp only [hR1 fuel (by omega), hR2 fuel (by omega)]
  | panic =>
    rw [hr] at hp
    obtain ⟨N, hN⟩ := hp
    refine ⟨N, fun fuel hf => ?_⟩
    have hn : substK fuel ⟨(load e (load a []).2).2, []⟩ (load e (load a []).2).1 (load a []).1 = .panic := hN fuel (by omega)
    rw [hn]
  | fatal =>
    rw [hr] at hp
    obtain ⟨N, hN⟩ := hp
    refine ⟨N, fun fuel hf => ?_⟩
    have hn : substK fuel ⟨(load e (load a []).2).2, []⟩ (load e (load a []).2).1 (load a []).1 = .fatal := hN fuel (by omega)
    rw [hn]
  | keyVar =>
    rw [hr] at h
    exact absurd rfl h

/-! ### A name as a key of two maps -/

/-- What a template has that uses a name as a key of two maps. -/
def twoKeys (u v : Int) : List (Bytes × Doc) :=
  [(asc "p", .obj (objOf [(asc "{X}", .num u)])), (asc "q", .obj (objOf [(asc "{X}", .num v)])), (asc "n", .str (asc "{X}"))]

theorem bind_left {α β : Type} {r r' : Run α} (f : α → Run β) (h : r = r') : r.bind f = r'.bind f := by rw [h]

theorem substK_ref (n : Nat) (s : Store) (e a : Nat) : substK (n + 1) s (.ref e) (.ref a) = keysK n s e a ((s.heap.getD e []).map Prod.fst) := by
  simp only [substK]

theorem substK_num (n : Nat) (s : Store) (x : Int) (v : V) : substK (n + 1) s (.num x) v = .ok s := by
  simp only [substK]

attribute [local congr] bind_left in
/-- C124: both keys stand for the name, in all orders. -/
theorem two_keys (fuel : Nat) (name : Bytes) (u v u' v' : Int) (m : List (Bytes × Doc)) (hm : m.Perm (twoKeys u v)) (hn : name ≠ asc "{X}") :
    jsonEqualK (fuel + 40) (.obj (objOf m)) (.obj (objOf [(asc "n", .str name), (asc "p", .obj (objOf [(name, .num u')])),
        (asc "q", .obj (objOf [(name, .num v')]))])) =
      some (if u = u' ∧ v = v' then .accepted else .failed) := by
  have hp : ∀ x y z : Bytes × Doc, ∀ l : List (Bytes × Doc), l.Perm [x, y, z] →
      l = [x, y, z] ∨ l = [x, z, y] ∨ l = [y, x, z] ∨ l = [y, z, x] ∨ l = [z, x, y] ∨ l = [z, y, x] := by
    intro x y z l h
    have h1 := h.length_eq
    match l, h1 with
    | [a, b, c], _ =>
      have h3 := h.mem_iff (a := a)
      simp only [List.mem_cons, List.not_mem_nil, or_false, true_or, true_iff] at h3
      rcases h3 with rfl | rfl | rfl
      · have h4 := (List.perm_cons a).mp h
        have h5 := h4.mem_iff (a := b)
        simp only [List.mem_cons, List.not_mem_nil, or_false, true_or, true_iff] at h5
        rcases h5 with rfl | rfl
        · have h6 := (List.perm_cons b).mp h4
          have h7 := List.perm_singleton.mp h6
          simp_all
        · have h6 := (List.perm_cons b).mp (h4.trans (List.Perm.swap _ _ _))
          have h7 := List.perm_singleton.mp h6
          simp_all
      · have h4 := (List.perm_cons a).mp (h.trans (List.Perm.swap _ _ _))
        have h5 := h4.mem_iff (a := b)
        simp only [List.mem_cons, List.not_mem_nil, or_false, true_or, true_iff] at h5
        rcases h5 with rfl | rfl
        · have h6 := (List.perm_cons b).mp h4
          have h7 := List.perm_singleton.mp h6
          simp_all
        · have h6 := (List.perm_cons b).mp (h4.trans (List.Perm.swap _ _ _))
          have h7 := List.perm_singleton.mp h6
          simp_all
      · have h4 := (List.perm_cons a).mp (h.trans ((List.Perm.swap _ _ _).cons _ |>.trans (List.Perm.swap _ _ _)))
        have h5 := h4.mem_iff (a := b)
        simp only [List.mem_cons, List.not_mem_nil, or_false, true_or, true_iff] at h5
        rcases h5 with rfl | rfl
        · have h6 := (List.perm_cons b).mp h4
          have h7 := List.perm_singleton.mp h6
          simp_all
        · have h6 := (List.perm_cons b).mp (h4.trans (List.Perm.swap _ _ _))
          have h7 := List.perm_singleton.mp h6
          simp_all
  have hp := hp _ _ _ _ hm
  have hb : (([123, 88, 125] : Bytes) == name) = false := by
    cases h : (([123, 88, 125] : Bytes) == name)
    · rfl
    · exact absurd (eq_of_beq h).symm hn
  rcases hp with rfl | rfl | rfl | rfl | rfl | rfl <;>
    simp [hb, objOf, jsonEqualK, load, loadM, substK_ref, substK_num, keysK, keyK, subVar, bindVar, runSubs, runSub, ok_bind,
      Store.get, Store.set, Store.del, Store.setVar, assocSet, assocDel, List.lookup, isVar, asc, anything, List.modify] <;>
    simp [and_comm, readV, readM, deepEqual, deepMembers, Members.get, Members.keys]

/-- C124 fails: whether a document that does not match panics depends on the order of the keys. -/
theorem order_of_waiting :
    let p : Bytes × Doc := (asc "p", .obj (objOf [(asc "{X}", .num 1)]))
    let q : Bytes × Doc := (asc "q", .obj (objOf [(asc "{X}", .obj (objOf [(asc "z", .str (asc "{Y}"))]))]))
    let y : Bytes × Doc := (asc "y", .str (asc "{Y}"))
    let n : Bytes × Doc := (asc "n", .str (asc "{X}"))
    let a : Doc := .obj (objOf [(asc "n", .str (asc "foo")), (asc "y", .num 1), (asc "p", .obj .nil),
      (asc "q", .obj (objOf [(asc "foo", .obj (objOf [(asc "z", .num 2)]))]))])
    jsonEqualK 40 (.obj (objOf [p, q, y, n])) a = some .panicked ∧ jsonEqualK 40 (.obj (objOf [q, p, y, n])) a = some .failed := by
  decide +kernel

/-! ### A concrete case -/

example : jsonEqual
      (.obj (objOf [(asc "a", .obj (objOf [(asc "id", .str (asc "{id}")), (asc "t", .str (asc "{ANYTHING}"))])),
        (asc "l", .arr (.cons (.obj (objOf [(asc "ref", .str (asc "{id}"))])) .nil))]))
      (.obj (objOf [(asc "l", .arr (.cons (.obj (objOf [(asc "ref", .str (asc "x1"))])) .nil)),
        (asc "a", .obj (objOf [(asc "t", .obj .nil), (asc "id", .str (asc "x1"))]))])) = .accepted ∧
    jsonEqualK 40
      (.obj (objOf [(asc "a", .obj (objOf [(asc "id", .str (asc "{id}")), (asc "t", .str (asc "{ANYTHING}"))])),
        (asc "l", .arr (.cons (.obj (objOf [(asc "ref", .str (asc "{id}"))])) .nil))]))
      (.obj (objOf [(asc "l", .arr (.cons (.obj (objOf [(asc "ref", .str (asc "x1"))])) .nil)),
        (asc "a", .obj (objOf [(asc "t", .obj .nil), (asc "id", .str (asc "x1"))]))])) = some .accepted := by decide +kernel

example : jsonEqualK 40 (.obj (objOf (twoKeys 1 2))) (.obj (objOf [(asc "n", .str (asc "k")), (asc "p", .obj (objOf [(asc "k", .num 1)])),
    (asc "q", .obj (objOf [(asc "k", .num 2)]))])) = some .accepted := two_keys 0 (asc "k") 1 2 1 2 _ (List.Perm.refl _) (by decide)

end Verif.JsonEqual
