import Verif.Time
/-!
# Model: times as objects

In `Verif/Time.lean` a clock contains its current and previous time as values, and
`execution_timestamps` is a list of values. In the code times are mutable objects: the
current time is changed in place, `previous_time` and the recorded times are copies, and
`simple_time` refers to the current time. Here times are objects on a heap.
-/

set_option linter.unusedSectionVars false

namespace GS

/-- time.py:113-136 `class Clock` and time.py:403-481 its `history`: the addresses of
`history.current_time`, `history.previous_time` and `simple_time._time_ref`. The `tree` is
the rest of the history, as a value (its objects are never handed out). -/
structure ClockRef where
  tree : Tree
  cur : Nat
  prev : Option Nat
  simple : Nat

/-- All time objects, all clocks, and the objects recorded in `execution_timestamps`
(scheduler.py:966-970), oldest first. Objects are never freed. -/
structure TimeObjs where
  times : List Time
  clocks : List ClockRef
  stamps : List Nat

/-- What a scheduler does with clocks and times. -/
inductive TimeOp where
  /-- `Clock()` -/
  | create
  /-- `copy.deepcopy(clock)` -/
  | copy (i : Nat)
  /-- `clock._increment_time(ts)` -/
  | incr (i : Nat) (ts : TimeScale)
  /-- `run` sets attributes of `clock.time` -/
  | touch (i : Nat) (f : Time → Time)
  /-- `run` records the time -/
  | stamp (i : Nat)

namespace TimeObjs

/-- Before anything is created. -/
def empty : TimeObjs := ⟨[], [], []⟩

/-- The contents of an object. -/
def read (o : TimeObjs) (x : Nat) : Time := o.times.getD x Time.zero

/-- time.py:133-136 `Clock.__init__` (458-460 for the times): `SimpleTime(self.time)` refers to
the current time. -/
def create (o : TimeObjs) : TimeObjs :=
  { o with
    times := o.times ++ [Time.zero]
    clocks := o.clocks ++ [⟨Clock.initTree, o.times.length, none, o.times.length⟩] }

/-- scheduler.py:592 `copy.deepcopy(clock)`: new objects for the current time, for the time
that `simple_time` refers to (the same one if it is the same in the original) and for the
previous time. -/
def copy (o : TimeObjs) (c : ClockRef) : TimeObjs :=
  let n := o.times.length
  { o with
    times := o.times ++ [o.read c.cur, o.read c.simple] ++ (c.prev.map o.read).toList
    clocks := o.clocks ++ [⟨c.tree, n, c.prev.map fun _ => n + 2,
      if c.simple = c.cur then n else n + 1⟩] }

/-- time.py:507-508, with the tree of 487-505: `previous_time` becomes a copy of the current
time, and the current time is changed in place. -/
def incr (o : TimeObjs) (i : Nat) (c : ClockRef) (ts : TimeScale) : TimeObjs :=
  match c.tree.incr Clock.maxDepth ts with
  | .error _ => o
  | .ok t =>
    { o with
      times := (o.times ++ [o.read c.cur]).set c.cur ((o.read c.cur).incr ts)
      clocks := o.clocks.set i { c with tree := t, prev := some o.times.length } }

/-- scheduler.py:887-906: assignments to attributes of the current time. -/
def touch (o : TimeObjs) (c : ClockRef) (f : Time → Time) : TimeObjs :=
  { o with times := o.times.set c.cur (f (o.read c.cur)) }

/-- scheduler.py:968-970 `execution_timestamps[id].append(copy.copy(current_time))`. -/
def stamp (o : TimeObjs) (c : ClockRef) : TimeObjs :=
  { o with times := o.times ++ [o.read c.cur], stamps := o.stamps ++ [o.times.length] }

/-- One operation; nothing happens if there is no such clock. -/
def step (o : TimeObjs) : TimeOp → TimeObjs
  | .create => o.create
  | .copy i => match o.clocks[i]? with
    | some c => o.copy c
    | none => o
  | .incr i ts => match o.clocks[i]? with
    | some c => o.incr i c ts
    | none => o
  | .touch i f => match o.clocks[i]? with
    | some c => o.touch c f
    | none => o
  | .stamp i => match o.clocks[i]? with
    | some c => o.stamp c
    | none => o

/-- A history of operations. -/
def after (o : TimeObjs) (ops : List TimeOp) : TimeObjs := ops.foldl step o

/-! ## Invariant -/

/-- Every current time is an object of its own, which `simple_time` refers to; copies are
other objects. -/
structure Good (o : TimeObjs) : Prop where
  cur : ∀ (i : Nat) (c : ClockRef), o.clocks[i]? = some c → c.cur < o.times.length
  simple : ∀ (i : Nat) (c : ClockRef), o.clocks[i]? = some c → c.simple = c.cur
  prev : ∀ (i : Nat) (c : ClockRef) (x : Nat), o.clocks[i]? = some c → c.prev = some x →
    x < o.times.length ∧ ∀ (j : Nat) (d : ClockRef), o.clocks[j]? = some d → d.cur ≠ x
  apart : ∀ (i j : Nat) (c d : ClockRef), o.clocks[i]? = some c → o.clocks[j]? = some d → c.cur = d.cur → i = j
  stamps : ∀ x ∈ o.stamps, x < o.times.length ∧ ∀ (j : Nat) (d : ClockRef), o.clocks[j]? = some d → d.cur ≠ x

theorem good_empty : Good empty := by
  constructor <;> simp [empty]

theorem snoc_cases {β : Type _} {l : List β} {x y : β} {i : Nat} (h : (l ++ [x])[i]? = some y) :
    l[i]? = some y ∨ (i = l.length ∧ y = x) := by
  rw [List.getElem?_append] at h
  split at h
  · exact .inl h
  · rename_i hi
    cases hk : i - l.length with
    | zero => rw [hk] at h; simp at h; exact .inr ⟨by omega, h.symm⟩
    | succ k => rw [hk] at h; simp at h

theorem set_cases {β : Type _} {l : List β} {x y : β} {i j : Nat} (h : (l.set i x)[j]? = some y) :
    (j ≠ i ∧ l[j]? = some y) ∨ (j = i ∧ y = x) := by
  rw [List.getElem?_set] at h
  split at h
  · split at h
    · cases h; exact .inr ⟨by omega, rfl⟩
    · cases h
  · exact .inl ⟨by omega, h⟩

/-- More times, and one more clock whose current time is new. -/
theorem Good.more {o : TimeObjs} (h : Good o) (ts : List Time) (c : ClockRef)
    (hc : o.times.length ≤ c.cur ∧ c.cur < o.times.length + ts.length) (hs : c.simple = c.cur)
    (hp : ∀ x, c.prev = some x → o.times.length ≤ x ∧ x < o.times.length + ts.length ∧ x ≠ c.cur) :
    Good { o with times := o.times ++ ts, clocks := o.clocks ++ [c] } := by
  constructor
  · intro i d hd
    simp only [List.length_append]
    rcases snoc_cases hd with hd | ⟨_, rfl⟩
    · have := h.cur i d hd; omega
    · omega
  · intro i d hd
    rcases snoc_cases hd with hd | ⟨_, rfl⟩
    · exact h.simple i d hd
    · exact hs
  · intro i d x hd hx
    simp only [List.length_append]
    rcases snoc_cases hd with hd | ⟨_, rfl⟩
    · obtain ⟨h1, h2⟩ := h.prev i d x hd hx
      refine ⟨by omega, fun j e he => ?_⟩
      rcases snoc_cases he with he | ⟨_, rfl⟩
      · exact h2 j e he
      · omega
    · obtain ⟨h1, h2, h3⟩ := hp x hx
      refine ⟨by omega, fun j e he => ?_⟩
      rcases snoc_cases he with he | ⟨_, rfl⟩
      · have := h.cur j e he; omega
      · omega
  · intro i j d e hd he heq
    rcases snoc_cases hd with hd' | ⟨hi, ed⟩ <;> rcases snoc_cases he with he' | ⟨hj, ee⟩
    · exact h.apart i j d e hd' he' heq
    · have := h.cur i d hd'; rw [heq, ee] at this; omega
    · have := h.cur j e he'; rw [← heq, ed] at this; omega
    · omega
  · intro x hx
    obtain ⟨h1, h2⟩ := h.stamps x hx
    simp only [List.length_append]
    refine ⟨by omega, fun j e he => ?_⟩
    rcases snoc_cases he with he | ⟨_, rfl⟩
    · exact h2 j e he
    · omega

theorem Good.create {o : TimeObjs} (h : Good o) : Good o.create :=
  h.more [Time.zero] _ ⟨Nat.le_refl _, by simp⟩ rfl (by simp)

theorem Good.copy {o : TimeObjs} (h : Good o) {i : Nat} {c : ClockRef}
    (hc : o.clocks[i]? = some c) : Good (o.copy c) := by
  unfold TimeObjs.copy
  simp only [List.append_assoc]
  apply h.more
  · simp
  · simp [h.simple i c hc]
  · intro x hx
    cases hp : c.prev with
    | none => simp [hp] at hx
    | some y => simp [hp] at hx; subst hx; simp

theorem Good.incr {o : TimeObjs} (h : Good o) {i : Nat} {c : ClockRef}
    (hc : o.clocks[i]? = some c) (ts : TimeScale) : Good (o.incr i c ts) := by
  unfold TimeObjs.incr
  split
  · exact h
  · rename_i t _
    have hcur := h.cur i c hc
    constructor
    · intro j d hd
      simp only [List.length_set, List.length_append, List.length_singleton]
      rcases set_cases hd with ⟨_, hd⟩ | ⟨_, rfl⟩
      · have := h.cur j d hd; omega
      · simp only; omega
    · intro j d hd
      rcases set_cases hd with ⟨_, hd⟩ | ⟨_, rfl⟩
      · exact h.simple j d hd
      · exact h.simple i c hc
    · intro j d x hd hx
      simp only [List.length_set, List.length_append, List.length_singleton]
      rcases set_cases hd with ⟨_, hd⟩ | ⟨_, rfl⟩
      · obtain ⟨h1, h2⟩ := h.prev j d x hd hx
        refine ⟨by omega, fun k e he => ?_⟩
        rcases set_cases he with ⟨_, he⟩ | ⟨_, rfl⟩
        · exact h2 k e he
        · exact h2 i c hc
      · simp only [Option.some.injEq] at hx
        subst hx
        refine ⟨by omega, fun k e he => ?_⟩
        rcases set_cases he with ⟨_, he⟩ | ⟨_, rfl⟩
        · have := h.cur k e he; omega
        · simp only; omega
    · intro j k d e hd he heq
      rcases set_cases hd with ⟨_, hd⟩ | ⟨hj, rfl⟩ <;> rcases set_cases he with ⟨_, he⟩ | ⟨hk, rfl⟩
      · exact h.apart j k d e hd he heq
      · rw [hk]; exact h.apart j i d c hd hc heq
      · rw [hj]; exact h.apart i k c e hc he heq
      · omega
    · intro x hx
      obtain ⟨h1, h2⟩ := h.stamps x hx
      simp only [List.length_set, List.length_append, List.length_singleton]
      refine ⟨by omega, fun k e he => ?_⟩
      rcases set_cases he with ⟨_, he⟩ | ⟨_, rfl⟩
      · exact h2 k e he
      · exact h2 i c hc

theorem Good.touch {o : TimeObjs} (h : Good o) (c : ClockRef) (f : Time → Time) :
    Good (o.touch c f) := by
  constructor <;> simp only [TimeObjs.touch, List.length_set]
  · exact h.cur
  · exact h.simple
  · exact h.prev
  · exact h.apart
  · exact h.stamps

theorem Good.stamp {o : TimeObjs} (h : Good o) (c : ClockRef) : Good (o.stamp c) := by
  constructor <;> simp only [TimeObjs.stamp, List.length_append, List.length_singleton]
  · intro i d hd; have := h.cur i d hd; omega
  · exact h.simple
  · intro i d x hd hx
    obtain ⟨h1, h2⟩ := h.prev i d x hd hx
    exact ⟨by omega, h2⟩
  · exact h.apart
  · intro x hx
    rcases List.mem_append.mp hx with hx | hx
    · obtain ⟨h1, h2⟩ := h.stamps x hx
      exact ⟨by omega, h2⟩
    · simp at hx; subst hx
      exact ⟨by omega, fun j d hd => by have := h.cur j d hd; omega⟩

theorem Good.step {o : TimeObjs} (h : Good o) (op : TimeOp) : Good (o.step op) := by
  cases op with
  | create => exact h.create
  | copy i => simp only [TimeObjs.step]; split; · rename_i hc; exact h.copy hc
              · exact h
  | incr i ts => simp only [TimeObjs.step]; split; · rename_i hc; exact h.incr hc ts
                 · exact h
  | touch i f => simp only [TimeObjs.step]; split; · exact h.touch _ f
                 · exact h
  | stamp i => simp only [TimeObjs.step]; split; · exact h.stamp _
               · exact h

theorem Good.after {o : TimeObjs} (h : Good o) (ops : List TimeOp) : Good (o.after ops) := by
  induction ops generalizing o with
  | nil => exact h
  | cons op ops ih => exact ih (h.step op)

/-! ## What an operation does to an object -/

theorem read_append {o : TimeObjs} {ts : List Time} {cs : List ClockRef} {ss : List Nat} {x : Nat}
    (hx : x < o.times.length) : read ⟨o.times ++ ts, cs, ss⟩ x = o.read x := by
  simp [read, List.getD, List.getElem?_append_left hx]

/-- Objects stay, clocks keep their time objects. -/
theorem step_cur (o : TimeObjs) (op : TimeOp) {i : Nat} {c : ClockRef} (hc : o.clocks[i]? = some c) :
    ∃ c', (o.step op).clocks[i]? = some c' ∧ c'.cur = c.cur ∧ c'.simple = c.simple := by
  have hi : i < o.clocks.length := (List.getElem?_eq_some_iff.mp hc).1
  have hap : ∀ d, (o.clocks ++ [d])[i]? = some c := fun d => by
    rw [List.getElem?_append_left hi]; exact hc
  cases op with
  | create => exact ⟨c, hap _, rfl, rfl⟩
  | copy j =>
    simp only [step]; split
    · exact ⟨c, hap _, rfl, rfl⟩
    · exact ⟨c, hc, rfl, rfl⟩
  | incr j ts =>
    simp only [step]; split
    · rename_i d hd
      unfold incr; split
      · exact ⟨c, hc, rfl, rfl⟩
      · by_cases hij : j = i
        · subst hij
          rw [hd] at hc; cases hc
          exact ⟨_, List.getElem?_set_self hi, rfl, rfl⟩
        · exact ⟨c, by simp only [List.getElem?_set_ne hij]; exact hc, rfl, rfl⟩
    · exact ⟨c, hc, rfl, rfl⟩
  | touch j f => simp only [step]; split <;> exact ⟨c, hc, rfl, rfl⟩
  | stamp j => simp only [step]; split <;> exact ⟨c, hc, rfl, rfl⟩

/-- An object that is no clock's current time is never changed. -/
theorem step_read {o : TimeObjs} (op : TimeOp) {x : Nat} (hx : x < o.times.length)
    (hn : ∀ (j : Nat) (d : ClockRef), o.clocks[j]? = some d → d.cur ≠ x) :
    (o.step op).read x = o.read x ∧ x < (o.step op).times.length ∧
      ∀ (j : Nat) (d : ClockRef), (o.step op).clocks[j]? = some d → d.cur ≠ x := by
  cases op with
  | create =>
    refine ⟨read_append hx, by simp [step, create]; omega, fun j d hd => ?_⟩
    rcases snoc_cases hd with hd | ⟨_, rfl⟩
    · exact hn j d hd
    · simp only; omega
  | copy i =>
    simp only [step]; split
    · unfold copy
      simp only [List.append_assoc]
      refine ⟨read_append hx, by simp; omega, fun j d hd => ?_⟩
      rcases snoc_cases hd with hd | ⟨_, rfl⟩
      · exact hn j d hd
      · simp only; omega
    · exact ⟨rfl, hx, hn⟩
  | incr i ts =>
    simp only [step]; split
    · rename_i c hc
      unfold incr; split
      · exact ⟨rfl, hx, hn⟩
      · have := hn i c hc
        refine ⟨?_, by simp; omega, fun j d hd => ?_⟩
        · simp [read, List.getD, List.getElem?_set_ne this, List.getElem?_append_left hx]
        · rcases set_cases hd with ⟨_, hd⟩ | ⟨_, rfl⟩
          · exact hn j d hd
          · exact this
    · exact ⟨rfl, hx, hn⟩
  | touch i f =>
    simp only [step]; split
    · rename_i c hc
      have := hn i c hc
      refine ⟨?_, by simp [touch]; omega, hn⟩
      simp [touch, read, List.getD, List.getElem?_set_ne this]
    · exact ⟨rfl, hx, hn⟩
  | stamp i =>
    simp only [step]; split
    · exact ⟨read_append hx, by simp [stamp]; omega, hn⟩
    · exact ⟨rfl, hx, hn⟩

end TimeObjs
end GS
