import Verif.Scheduler
import Verif.Delete
/-!
# Model: the clocks of a scheduler as objects

In `Verif/Scheduler.lean` the clocks of a scheduler are values.  In the code they are mutable
objects: `run` keeps the time object of one of them in a local variable, `get_clock` hands the
objects out, and ids that have an attribute `default_execution_id` use the clock of that id.
Here clocks are objects: the dict of the scheduler maps ids to addresses, and a heap maps
addresses to the current contents.
-/

set_option linter.unusedSectionVars false

namespace GS
variable {ι : Type _} [DecidableEq ι]

/-- `Scheduler.clocks` (scheduler.py:518) with the objects it refers to.  A clock object and
its time object (time.py:187-192: `clock.time` is `clock.history.current_time`, which is
changed in place, 508, and never replaced) are one address.  Objects are never freed. -/
structure ClockObjs (ι : Type _) where
  dict : Dict ι Nat
  heap : List Clock

namespace ClockObjs

/-- scheduler.py:518 `self.clocks = {self.default_execution_id: Clock()}`. -/
def created (d : ι) : ClockObjs ι := ⟨[(d, 0)], [Clock.new]⟩

/-- The contents of an object. -/
def read (o : ClockObjs ι) (a : Nat) : Clock := o.heap.getD a Clock.new

/-- `self.clocks[k] = <a new object with contents c>`. -/
def alloc (o : ClockObjs ι) (k : ι) (c : Clock) : ClockObjs ι :=
  ⟨Dict.set o.dict k o.heap.length, o.heap ++ [c]⟩

/-- scheduler.py:584-594 `_init_clock`; `base = none` is `NotImplemented`.  `copy.deepcopy`
makes a new object with the same contents. -/
def initClock (o : ClockObjs ι) (k : ι) (base : Option ι) : Except Err (ClockObjs ι) :=
  match Dict.get? o.dict k with
  | some _ => .ok o
  | none => match base with
    | none => .ok (o.alloc k Clock.new)
    | some b => match Dict.get? o.dict b with
      | none => .error .schedulerError
      | some a => .ok (o.alloc k (o.read a))

/-- scheduler.py:1045-1057 `get_clock`; `dflt i` is the attribute `default_execution_id` of
`i`, if it has one.  The three cases are the `try` and the two `except` clauses. -/
def getClock (dflt : ι → Option ι) (o : ClockObjs ι) (i : ι) : ClockObjs ι × Nat :=
  match dflt i with
  | some d => match Dict.get? o.dict d with
    | some a => (o, a)
    | none => (o.alloc d Clock.new, o.heap.length)
  | none => match Dict.get? o.dict i with
    | some a => (o, a)
    | none => (o.alloc i Clock.new, o.heap.length)

/-- A change in place of the object at an address. -/
def write (o : ClockObjs ι) (a : Nat) (c : Clock) : ClockObjs ι :=
  ⟨o.dict, o.heap.set a c⟩

/-- scheduler.py:994-995 `_increment_time` and 973, 982, 984, 987:
`self.get_clock(i)._increment_time(ts)`. -/
def incrClock (dflt : ι → Option ι) (o : ClockObjs ι) (i : ι) (ts : TimeScale) :
    Except Err (ClockObjs ι) :=
  match ((o.getClock dflt i).1.read (o.getClock dflt i).2).incr ts with
  | .ok c => .ok ((o.getClock dflt i).1.write (o.getClock dflt i).2 c)
  | .error e => .error e

/-- scheduler.py:878-904: `current_time = self.get_clock(i).time` and then assignments to
attributes of `current_time`. -/
def touch (dflt : ι → Option ι) (o : ClockObjs ι) (i : ι) (f : Time → Time) : ClockObjs ι :=
  let g := o.getClock dflt i
  g.1.write g.2 { g.1.read g.2 with time := f (g.1.read g.2).time }

/-- scheduler.py:596-607 `_delete_counts`, the part about `self.clocks`. -/
def delete (o : ClockObjs ι) (i : ι) : ClockObjs ι :=
  ⟨Dict.delete o.dict i, o.heap⟩

end ClockObjs

/-- What a user, a run or a condition does with the clocks of a scheduler. -/
inductive ClockOp (ι : Type _) where
  /-- `scheduler.get_clock(i)` -/
  | get (i : ι)
  /-- `scheduler._init_clock(i, base)`, called by `_init_counts` (scheduler.py:582) -/
  | init (i : ι) (base : Option ι)
  /-- time passes under `i` -/
  | incr (i : ι) (ts : TimeScale)
  /-- a run under `i` starts and sets attributes of the time -/
  | touch (i : ι) (f : Time → Time)
  /-- `scheduler._delete_counts(i)` -/
  | delete (i : ι)

namespace ClockObjs

/-- One operation; an operation that raises leaves the clocks as they are
(cf. `Clock.incr`). -/
def step (dflt : ι → Option ι) (o : ClockObjs ι) : ClockOp ι → ClockObjs ι
  | .get i => (o.getClock dflt i).1
  | .init i base => match o.initClock i base with
    | .ok o' => o'
    | .error _ => o
  | .incr i ts => match o.incrClock dflt i ts with
    | .ok o' => o'
    | .error _ => (o.getClock dflt i).1
  | .touch i f => o.touch dflt i f
  | .delete i => o.delete i

/-- A history of operations. -/
def after (dflt : ι → Option ι) (o : ClockObjs ι) (ops : List (ClockOp ι)) : ClockObjs ι :=
  ops.foldl (step dflt) o

/-! ## Invariant -/

/-- Every object in the dict exists and is in it only once. -/
structure Good (o : ClockObjs ι) : Prop where
  wf : Dict.WF o.dict
  old : ∀ k a, Dict.get? o.dict k = some a → a < o.heap.length
  inj : ∀ k k' a, Dict.get? o.dict k = some a → Dict.get? o.dict k' = some a → k = k'

theorem good_created (d : ι) : Good (created d) := by
  refine ⟨by simp [created, Dict.WF], fun k a h => ?_, fun k k' a h h' => ?_⟩ <;>
    simp only [created, Dict.get?_cons, Dict.get?_nil] at *
  · split at h
    · cases h; decide
    · cases h
  · split at h
    · split at h'
      · simp_all
      · cases h'
    · cases h

theorem Good.alloc {o : ClockObjs ι} (h : Good o) (k : ι) (c : Clock) : Good (o.alloc k c) := by
  refine ⟨h.wf.set _ _, fun k' a ha => ?_, fun k1 k2 a h1 h2 => ?_⟩
  · simp only [ClockObjs.alloc, Dict.get?_set] at ha ⊢
    simp only [List.length_append, List.length_cons, List.length_nil]
    split at ha
    · cases ha; omega
    · have := h.old _ _ ha; omega
  · simp only [ClockObjs.alloc, Dict.get?_set] at h1 h2
    split at h1 <;> split at h2
    · simp_all
    · cases h1; have := h.old _ _ h2; omega
    · cases h2; have := h.old _ _ h1; omega
    · exact h.inj _ _ _ h1 h2

theorem Good.write {o : ClockObjs ι} (h : Good o) (a : Nat) (c : Clock) : Good (o.write a c) :=
  ⟨h.wf, fun k b hb => by
    simpa only [ClockObjs.write, List.length_set] using h.old k b hb, h.inj⟩

theorem _root_.GS.Dict.WF.delete {β γ : Type _} [DecidableEq β] {d : Dict β γ}
    (h : Dict.WF d) (k : β) :
    Dict.WF (Dict.delete d k) := by
  unfold Dict.WF Dict.keys Dict.delete at *
  exact List.Nodup.sublist (List.Sublist.map _ List.filter_sublist) h

theorem Good.delete {o : ClockObjs ι} (h : Good o) (i : ι) : Good (o.delete i) := by
  refine ⟨h.wf.delete i, fun k a ha => ?_, fun k1 k2 a h1 h2 => ?_⟩
  · simp only [ClockObjs.delete, Dict.get?_delete] at ha ⊢
    split at ha
    · cases ha
    · exact h.old _ _ ha
  · simp only [ClockObjs.delete, Dict.get?_delete] at h1 h2
    split at h1
    · cases h1
    · split at h2
      · cases h2
      · exact h.inj _ _ _ h1 h2

/-- The id whose clock is used for `i`. -/
theorem getClock_eq (dflt : ι → Option ι) (o : ClockObjs ι) (i : ι) :
    o.getClock dflt i = match Dict.get? o.dict ((dflt i).getD i) with
      | some a => (o, a)
      | none => (o.alloc ((dflt i).getD i) Clock.new, o.heap.length) := by
  unfold getClock
  cases dflt i <;> rfl

theorem Good.getClock {o : ClockObjs ι} (h : Good o) (dflt : ι → Option ι) (i : ι) :
    Good (o.getClock dflt i).1 := by
  rw [getClock_eq]
  split
  · exact h
  · exact h.alloc _ _

/-- After `get_clock(i)` the object is in the dict. -/
theorem getClock_has (dflt : ι → Option ι) (o : ClockObjs ι) (i : ι) :
    Dict.get? (o.getClock dflt i).1.dict ((dflt i).getD i) = some (o.getClock dflt i).2 := by
  rw [getClock_eq]
  split
  · assumption
  · simp [ClockObjs.alloc, Dict.get?_set]

/-- `_init_clock` does nothing or stores a new object under a new key. -/
theorem step_init (dflt : ι → Option ι) (o : ClockObjs ι) (i : ι) (base : Option ι) :
    o.step dflt (.init i base) = o ∨
      (Dict.get? o.dict i = none ∧ ∃ c, o.step dflt (.init i base) = o.alloc i c) := by
  simp only [ClockObjs.step, ClockObjs.initClock]
  cases hi : Dict.get? o.dict i with
  | some _ => exact .inl rfl
  | none =>
    cases base with
    | none => exact .inr ⟨rfl, _, rfl⟩
    | some b =>
      cases hb : Dict.get? o.dict b with
      | none => exact .inl (by simp [hb])
      | some a => exact .inr ⟨rfl, o.read a, by simp [hb]⟩

theorem Good.step {o : ClockObjs ι} (h : Good o) (dflt : ι → Option ι) (op : ClockOp ι) :
    Good (o.step dflt op) := by
  cases op with
  | get i => exact h.getClock dflt i
  | init i base =>
    rcases step_init dflt o i base with e | ⟨_, c, e⟩ <;> rw [e]
    · exact h
    · exact h.alloc _ _
  | incr i ts =>
    simp only [ClockObjs.step, ClockObjs.incrClock]
    split
    · next h' =>
      split at h'
      · cases h'; exact (h.getClock dflt i).write _ _
      · cases h'
    · exact h.getClock dflt i
  | touch i f => exact (h.getClock dflt i).write _ _
  | delete i => exact h.delete i

theorem Good.after {o : ClockObjs ι} (h : Good o) (dflt : ι → Option ι)
    (ops : List (ClockOp ι)) : Good (o.after dflt ops) := by
  induction ops generalizing o with
  | nil => exact h
  | cons op ops ih => exact ih (h.step dflt op)

/-! ## What stays -/

/-- An operation that does not delete `k` keeps the object of `k`. -/
theorem alloc_keeps {o : ClockObjs ι} {k : ι} {a : Nat} (ha : Dict.get? o.dict k = some a)
    {k' : ι} (hk : Dict.get? o.dict k' = none) (c : Clock) :
    Dict.get? (o.alloc k' c).dict k = some a := by
  simp only [ClockObjs.alloc, Dict.get?_set]
  rw [if_neg, ha]
  rintro rfl
  rw [ha] at hk; cases hk

theorem getClock_keeps {o : ClockObjs ι} {k : ι} {a : Nat} (ha : Dict.get? o.dict k = some a)
    (dflt : ι → Option ι) (i : ι) : Dict.get? (o.getClock dflt i).1.dict k = some a := by
  rw [getClock_eq]
  split
  · exact ha
  · next hn => exact alloc_keeps ha hn _

theorem step_keeps {o : ClockObjs ι} {k : ι} {a : Nat} (ha : Dict.get? o.dict k = some a)
    (dflt : ι → Option ι) (op : ClockOp ι) (hop : op ≠ .delete k) :
    Dict.get? (o.step dflt op).dict k = some a := by
  cases op with
  | get i => exact getClock_keeps ha dflt i
  | init i base =>
    rcases step_init dflt o i base with e | ⟨hi, c, e⟩ <;> rw [e]
    · exact ha
    · exact alloc_keeps ha hi _
  | incr i ts =>
    simp only [ClockObjs.step, ClockObjs.incrClock]
    split
    · next h' =>
      split at h'
      · cases h'; exact getClock_keeps ha dflt i
      · cases h'
    · exact getClock_keeps ha dflt i
  | touch i f => exact getClock_keeps ha dflt i
  | delete i =>
    simp only [ClockObjs.step, ClockObjs.delete, Dict.get?_delete]
    rw [if_neg, ha]
    rintro rfl
    exact hop rfl

theorem after_keeps {o : ClockObjs ι} {k : ι} {a : Nat} (ha : Dict.get? o.dict k = some a)
    (dflt : ι → Option ι) (ops : List (ClockOp ι)) (hops : ClockOp.delete k ∉ ops) :
    Dict.get? (o.after dflt ops).dict k = some a := by
  induction ops generalizing o with
  | nil => exact ha
  | cons op ops ih =>
    exact ih (step_keeps ha dflt op (fun h => hops (by simp [h])))
      (fun h => hops (by simp [h]))

/-- `a` is an object that belongs to no keys but those in `P`. -/
structure Only (o : ClockObjs ι) (P : ι → Prop) (a : Nat) : Prop where
  old : a < o.heap.length
  only : ∀ k', Dict.get? o.dict k' = some a → P k'

theorem Only.alloc {o : ClockObjs ι} {P : ι → Prop} {a : Nat} (h : Only o P a)
    (k' : ι) (c : Clock) :
    Only (o.alloc k' c) P a := by
  refine ⟨?_, fun k1 h1 => ?_⟩
  · simp only [ClockObjs.alloc, List.length_append, List.length_cons, List.length_nil]
    have := h.old; omega
  · simp only [ClockObjs.alloc, Dict.get?_set] at h1
    split at h1
    · cases h1; have := h.old; omega
    · exact h.only _ h1

theorem Only.getClock {o : ClockObjs ι} {P : ι → Prop} {a : Nat} (h : Only o P a)
    (dflt : ι → Option ι) (i : ι) : Only (o.getClock dflt i).1 P a := by
  rw [getClock_eq]
  split
  · exact h
  · exact h.alloc _ _

theorem Only.write {o : ClockObjs ι} {P : ι → Prop} {a : Nat} (h : Only o P a)
    (b : Nat) (c : Clock) :
    Only (o.write b c) P a :=
  ⟨by simpa only [ClockObjs.write, List.length_set] using h.old, h.only⟩

theorem Only.step {o : ClockObjs ι} {P : ι → Prop} {a : Nat} (h : Only o P a)
    (dflt : ι → Option ι) (op : ClockOp ι) : Only (o.step dflt op) P a := by
  cases op with
  | get i => exact h.getClock dflt i
  | init i base =>
    rcases step_init dflt o i base with e | ⟨_, c, e⟩ <;> rw [e]
    · exact h
    · exact h.alloc _ _
  | incr i ts =>
    simp only [ClockObjs.step, ClockObjs.incrClock]
    split
    · next h' =>
      split at h'
      · cases h'; exact (h.getClock dflt i).write _ _
      · cases h'
    · exact h.getClock dflt i
  | touch i f => exact (h.getClock dflt i).write _ _
  | delete i =>
    refine ⟨h.old, fun k' h' => ?_⟩
    simp only [ClockObjs.step, ClockObjs.delete, Dict.get?_delete] at h'
    split at h'
    · cases h'
    · exact h.only _ h'

theorem Only.after {o : ClockObjs ι} {P : ι → Prop} {a : Nat} (h : Only o P a)
    (dflt : ι → Option ι) (ops : List (ClockOp ι)) : Only (o.after dflt ops) P a := by
  induction ops generalizing o with
  | nil => exact h
  | cons op ops ih => exact ih (h.step dflt op)

theorem Good.only {o : ClockObjs ι} (h : Good o) {k : ι} {a : Nat}
    (ha : Dict.get? o.dict k = some a) : Only o (· = k) a :=
  ⟨h.old _ _ ha, fun k' h' => h.inj _ _ _ h' ha⟩

end ClockObjs
end GS
