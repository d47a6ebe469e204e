import Verif.Basic

/-!
# C156: the points a collector gets

The dimensions of all points of one shard are pieces of one array (countlog/stats/window.go:68-78), and a piece has the rest of the
array as its capacity.  A collector may keep points, and append to the dimension of a point.
-/

namespace Verif.Stats.Points

/-! ### Model -/

/-- `Window`, countlog/stats/window.go:14-19: what `Export` uses.  Simplified: one shard; counters are natural numbers; the map
is the list of its entries in the order in which a range loop finds them. -/
structure Window where
  event : Bytes
  count : Nat
  entries : List (List Bytes × Nat)

/-- `newWindow`, window.go:26-39, as called at countlog/stats/stats.go:47 for a site with this event name, which it does not
get. -/
def newWindow (_site : Bytes) (count : Nat) : Window := ⟨[], count, []⟩

/-- Events counted since (countlog/stats/counter.go:11-17): the map has these entries. -/
def Window.with (w : Window) (entries : List (List Bytes × Nat)) : Window := { w with entries := entries }

/-- A piece of the array, `space[:window.dimensionElemCount]`, window.go:71. -/
structure Piece where
  off : Nat
  len : Nat
  cap : Nat

/-- `Point`, countlog/stats/state.go:9-14; times are numbers. -/
structure Point where
  event : Bytes
  time : Nat
  dimension : Piece
  value : Nat

/-- The strings of a piece, window.go:71. -/
def read (arr : List Bytes) (p : Piece) : List Bytes := (arr.drop p.off).take p.len

/-- Writing into the array, as `copy` does, window.go:78. -/
def write (arr : List Bytes) (off : Nat) (xs : List Bytes) : List Bytes := arr.take off ++ xs ++ arr.drop (off + xs.length)

/-- The result of `append` to a dimension (state.go:12): still in the array, or a new array. -/
inductive Slice where
  | piece (p : Piece)
  | own (l : List Bytes)

/-- What a slice holds (state.go:12). -/
def Slice.read (arr : List Bytes) : Slice → List Bytes
  | .piece p => Points.read arr p
  | .own l => l

/-- `append(point.Dimension, xs...)` in a collector (`Collect`, state.go:16-18). -/
def append (arr : List Bytes) (p : Piece) (xs : List Bytes) : List Bytes × Slice :=
  if p.len + xs.length ≤ p.cap then (write arr (p.off + p.len) xs, .piece { p with len := p.len + xs.length })
  else (arr, .own (read arr p ++ xs))

/-- The loop of `exportShard`, window.go:70-85, from the piece at `off` on; the collector gets the points and appends `adds j` to the
dimension of the `j`-th.  The result is the array, and the points with what was made of them. -/
def exportLoop (w : Window) (now : Nat) (adds : Nat → List Bytes) :
    Nat → Nat → List (List Bytes × Nat) → List Bytes → List Bytes × List (Point × Slice)
  | _, _, [], arr => (arr, [])
  | j, off, e :: rest, arr =>
    let arr := write arr off (e.1.take w.count)
    let p : Point := ⟨w.event, now, ⟨off, w.count, arr.length - off⟩, e.2⟩
    let a := append arr p.dimension (adds j)
    let r := exportLoop w now adds (j + 1) (off + w.count) rest a.1
    (r.1, (p, a.2) :: r.2)

/-- `exportShard`, window.go:65-86: the array, and the points. -/
def exportShard (w : Window) (now : Nat) (adds : Nat → List Bytes) : List Bytes × List (Point × Slice) :=
  exportLoop w now adds 0 0 w.entries (List.replicate (w.entries.length * w.count) [])

/-! ### Proofs -/

theorem write_length (arr xs : List Bytes) (off : Nat) (h : off + xs.length ≤ arr.length) : (write arr off xs).length = arr.length := by
  simp only [write, List.length_append, List.length_take, List.length_drop]
  omega

theorem write_take (arr xs : List Bytes) (off k : Nat) (h : off ≤ arr.length) (hk : k ≤ off) : (write arr off xs).take k = arr.take k := by
  rw [write, List.append_assoc, List.take_append_of_le_length (by simp; omega), List.take_take, Nat.min_eq_left hk]

/-- The loop writes only from `off` on. -/
theorem loop_keeps (w : Window) (now : Nat) (adds : Nat → List Bytes) : ∀ (es : List (List Bytes × Nat)) (j off : Nat) (arr : List Bytes),
    off + es.length * w.count = arr.length → (∀ e ∈ es, e.1.length = w.count) →
    (exportLoop w now adds j off es arr).1.length = arr.length ∧ (exportLoop w now adds j off es arr).1.take off = arr.take off
  | [], _, _, _, _, _ => ⟨rfl, rfl⟩
  | e :: es, j, off, arr, hl, he => by
    have h1 := he e (by simp)
    simp only [List.length_cons, Nat.add_mul, Nat.one_mul] at hl
    have ht : e.1.take w.count = e.1 := List.take_of_length_le (by omega)
    simp only [exportLoop, ht]
    have hw : (write arr off e.1).length = arr.length := write_length _ _ _ (by omega)
    have ha : (append (write arr off e.1) ⟨off, w.count, (write arr off e.1).length - off⟩ (adds j)).1.length = arr.length ∧
        (append (write arr off e.1) ⟨off, w.count, (write arr off e.1).length - off⟩ (adds j)).1.take (off + w.count) =
          (write arr off e.1).take (off + w.count) := by
      unfold append
      split
      · rename_i hc
        simp only at hc ⊢
        rw [hw] at hc
        refine ⟨by rw [write_length _ _ _ (by omega), hw], write_take _ _ _ _ (by omega) (Nat.le_refl _)⟩
      · exact ⟨hw, rfl⟩
    obtain ⟨r1, r2⟩ := loop_keeps w now adds es (j + 1) (off + w.count)
      (append (write arr off e.1) ⟨off, w.count, (write arr off e.1).length - off⟩ (adds j)).1 (by rw [ha.1]; omega)
      (fun x hx => he x (by simp [hx]))
    refine ⟨by rw [r1, ha.1], ?_⟩
    have : ∀ l : List Bytes, l.take off = (l.take (off + w.count)).take off := fun l => by
      rw [List.take_take, Nat.min_eq_left (by omega)]
    rw [this, r2, ha.2, ← this, write_take _ _ _ _ (by omega) (Nat.le_refl _)]

theorem loop_points (w : Window) (now : Nat) (adds : Nat → List Bytes) : ∀ (es : List (List Bytes × Nat)) (j off : Nat) (arr : List Bytes),
    off + es.length * w.count = arr.length → (∀ e ∈ es, e.1.length = w.count) →
    (exportLoop w now adds j off es arr).2.map
        (fun p => (p.1.event, p.1.time, read (exportLoop w now adds j off es arr).1 p.1.dimension, p.1.value)) =
      es.map fun e => (w.event, now, e.1, e.2)
  | [], _, _, _, _, _ => rfl
  | e :: es, j, off, arr, hl, he => by
    have h1 := he e (by simp)
    simp only [List.length_cons, Nat.add_mul, Nat.one_mul] at hl
    have ht : e.1.take w.count = e.1 := List.take_of_length_le (by omega)
    simp only [exportLoop, ht]
    have hw : (write arr off e.1).length = arr.length := write_length _ _ _ (by omega)
    have ha : (append (write arr off e.1) ⟨off, w.count, (write arr off e.1).length - off⟩ (adds j)).1.length = arr.length ∧
        (append (write arr off e.1) ⟨off, w.count, (write arr off e.1).length - off⟩ (adds j)).1.take (off + w.count) =
          (write arr off e.1).take (off + w.count) := by
      unfold append
      split
      · rename_i hc
        simp only at hc ⊢
        rw [hw] at hc
        refine ⟨by rw [write_length _ _ _ (by omega), hw], write_take _ _ _ _ (by omega) (Nat.le_refl _)⟩
      · exact ⟨hw, rfl⟩
    have hrest : ∀ x ∈ es, x.1.length = w.count := fun x hx => he x (by simp [hx])
    obtain ⟨r1, r2⟩ := loop_keeps w now adds es (j + 1) (off + w.count)
      (append (write arr off e.1) ⟨off, w.count, (write arr off e.1).length - off⟩ (adds j)).1 (by rw [ha.1]; omega) hrest
    have ih := loop_points w now adds es (j + 1) (off + w.count)
      (append (write arr off e.1) ⟨off, w.count, (write arr off e.1).length - off⟩ (adds j)).1 (by rw [ha.1]; omega) hrest
    rw [List.map_cons, List.map_cons, ih]
    congr 1
    have hd : ∀ l : List Bytes, (l.drop off).take w.count = (l.take (off + w.count)).drop off := fun l => by
      rw [List.drop_take, Nat.add_sub_cancel_left]
    simp only [read]
    rw [hd, r2, ha.2, ← hd, write, List.append_assoc, List.drop_append_of_le_length (by simp; omega)]
    rw [List.drop_of_length_le (by simp; omega), List.nil_append, ← h1, List.take_left]

/-- C156 (partial): for every combination in the map the collector gets one point, with the time of the export, the
combination and its count, and all the points are still so at the end of the export, whatever the collector appends to them.
Missing: the name of the event (`point_unnamed`), and that what a collector appends stays
(`appended_lost`) and is not seen in other points (`append_later_spoils`). -/
theorem points_partial (site : Bytes) (count now : Nat) (entries : List (List Bytes × Nat)) (adds : Nat → List Bytes)
    (h : ∀ e ∈ entries, e.1.length = count) :
    (exportShard ((newWindow site count).with entries) now adds).2.map
        (fun p => (p.1.time, read (exportShard ((newWindow site count).with entries) now adds).1 p.1.dimension, p.1.value)) =
      entries.map (fun e => (now, e.1, e.2)) := by
  have := loop_points ((newWindow site count).with entries) now adds entries 0 0 (List.replicate (entries.length * count) [])
    (by simp [newWindow, Window.with]) h
  have h2 := congrArg (List.map fun x : Bytes × Nat × List Bytes × Nat => x.2) this
  rw [List.map_map, List.map_map] at h2
  exact h2

/-- C156, negation: no point has the name of the event, so that the points for two events cannot be told apart. -/
theorem point_unnamed (site site' : Bytes) (count now : Nat) (entries : List (List Bytes × Nat)) (adds : Nat → List Bytes) :
    (∀ p ∈ (exportShard ((newWindow site count).with entries) now adds).2, p.1.event = []) ∧
    exportShard ((newWindow site count).with entries) now adds = exportShard ((newWindow site' count).with entries) now adds := by
  refine ⟨?_, rfl⟩
  have key : ∀ (es : List (List Bytes × Nat)) (j off : Nat) (arr : List Bytes),
      ∀ p ∈ (exportLoop ((newWindow site count).with entries) now adds j off es arr).2, p.1.event = [] := by
    intro es
    induction es with
    | nil => intro j off arr p hp; simp [exportLoop] at hp
    | cons e es ih =>
      intro j off arr p hp
      rcases List.mem_cons.mp hp with rfl | hp
      · rfl
      · exact ih _ _ _ p hp
  exact key _ _ _ _

/-- C156, negation: what a collector appends to the dimension of a point is replaced by the next point's dimension. -/
theorem appended_lost (now : Nat) (a b x : Bytes) (va vb : Nat) :
    let r := exportShard ((newWindow [] 1).with [([a], va), ([b], vb)]) now (fun j => if j = 0 then [x] else [])
    r.2.map (fun p => p.2.read r.1) = [[a, b], [b]] := by
  rfl

/-- C156, negation: appending to the dimension of a point that was kept changes another point that was kept. -/
theorem append_later_spoils (now : Nat) (a b x : Bytes) (va vb : Nat) :
    let r := exportShard ((newWindow [] 1).with [([a], va), ([b], vb)]) now (fun _ => [])
    ∃ p q, r.2.map Prod.fst = [p, q] ∧ read r.1 q.dimension = [b] ∧ read (append r.1 p.dimension [x]).1 q.dimension = [x] :=
  ⟨_, _, rfl, rfl, rfl⟩

example :
    let r := exportShard ((newWindow (asc "login") 2).with [([asc "city", asc "x"], 3), ([asc "city", asc "y"], 0)]) 7 (fun j => if j = 0 then [asc "extra"] else [])
    r.2.map (fun p => (p.1.event, p.1.time, read r.1 p.1.dimension, p.1.value)) =
      [([], 7, [asc "city", asc "x"], 3), ([], 7, [asc "city", asc "y"], 0)] := by
  rfl

end Verif.Stats.Points
