import Verif.ClockObjs
/-!
# C109: the clock object of an execution id
-/

set_option linter.unusedSectionVars false

namespace GS
variable {ι α κ W : Type _} [DecidableEq ι] [DecidableEq α] [DecidableEq κ]

namespace ClockObjs

theorem read_append (o : ClockObjs ι) (k : ι) (c : Clock) {a : Nat} (ha : a < o.heap.length) :
    (o.alloc k c).read a = o.read a := by
  simp only [read, alloc, List.getD_eq_getElem?_getD]
  rw [List.getElem?_append_left ha]

theorem read_new (o : ClockObjs ι) (k : ι) (c : Clock) :
    (o.alloc k c).read o.heap.length = c := by
  simp [read, alloc, List.getD_eq_getElem?_getD]

theorem read_write_ne (o : ClockObjs ι) {a b : Nat} (h : a ≠ b) (c : Clock) :
    (o.write b c).read a = o.read a := by
  simp only [read, write, List.getD_eq_getElem?_getD]
  rw [List.getElem?_set_ne (Ne.symm h)]

theorem read_write (o : ClockObjs ι) {a : Nat} (h : a < o.heap.length) (c : Clock) :
    (o.write a c).read a = c := by
  simp only [read, write, List.getD_eq_getElem?_getD]
  rw [List.getElem?_set_self h]; rfl

theorem read_getClock (o : ClockObjs ι) (dflt : ι → Option ι) (i : ι) {a : Nat}
    (ha : a < o.heap.length) : (o.getClock dflt i).1.read a = o.read a := by
  rw [getClock_eq]
  split
  · rfl
  · exact read_append _ _ _ ha

/-- Objects are changed only through ids that have them. -/
theorem step_read {o : ClockObjs ι} (dflt : ι → Option ι) (op : ClockOp ι) {a : Nat}
    (ha : a < o.heap.length)
    (hn : ∀ i, ((∃ ts, op = .incr i ts) ∨ ∃ f, op = .touch i f) →
      (o.getClock dflt i).2 ≠ a) : (o.step dflt op).read a = o.read a := by
  cases op with
  | get i => exact read_getClock o dflt i ha
  | init i base =>
    rcases step_init dflt o i base with e | ⟨_, c, e⟩ <;> rw [e]
    exact read_append _ _ _ ha
  | incr i ts =>
    have hne := hn i (.inl ⟨ts, rfl⟩)
    simp only [ClockObjs.step, ClockObjs.incrClock]
    split
    · next h' =>
      split at h'
      · cases h'
        rw [read_write_ne _ (Ne.symm hne)]
        exact read_getClock o dflt i ha
      · cases h'
    · exact read_getClock o dflt i ha
  | touch i f =>
    have hne := hn i (.inr ⟨f, rfl⟩)
    simp only [ClockObjs.step, ClockObjs.touch]
    rw [read_write_ne _ (Ne.symm hne)]
    exact read_getClock o dflt i ha
  | delete i => rfl

/-! ## Clocks as values -/

/-- The contents of the clocks, by id. -/
def values (o : ClockObjs ι) : Dict ι Clock := o.dict.map fun e => (e.1, o.read e.2)

theorem get?_map (d : Dict ι Nat) (f : Nat → Clock) (k : ι) :
    Dict.get? (d.map fun e => (e.1, f e.2)) k = (Dict.get? d k).map f := by
  induction d with
  | nil => rfl
  | cons e d ih =>
    obtain ⟨x, v⟩ := e
    simp only [List.map_cons, Dict.get?_cons, ih]
    split <;> rfl

theorem get?_values (o : ClockObjs ι) (k : ι) :
    Dict.get? o.values k = (Dict.get? o.dict k).map o.read := get?_map _ _ _

theorem set_new {β : Type _} (d : Dict ι β) (k : ι) (v : β) (h : Dict.get? d k = none) :
    Dict.set d k v = d ++ [(k, v)] := by
  induction d with
  | nil => rfl
  | cons e d ih =>
    obtain ⟨x, w⟩ := e
    rw [Dict.get?_cons] at h
    split at h
    · cases h
    · next hx => simp only [Dict.set, if_neg hx, ih h, List.cons_append]

theorem values_alloc {o : ClockObjs ι} (h : Good o) {k : ι} (hk : Dict.get? o.dict k = none)
    (c : Clock) : (o.alloc k c).values = Dict.set o.values k c := by
  rw [set_new _ _ _ (by rw [get?_values, hk]; rfl)]
  show (Dict.set o.dict k o.heap.length).map _ = _
  rw [set_new _ _ _ hk, List.map_append]
  congr 1
  · refine List.map_congr_left fun e he => ?_
    rw [read_append _ _ _ (h.old e.1 e.2 (Dict.get?_of_mem h.wf he))]
  · simp [read_new]

theorem set_map (d : Dict ι Nat) (wf : Dict.WF d) (f g : Nat → Clock) (k : ι) (a : Nat)
    (hm : Dict.get? d k = some a) (hg : ∀ e ∈ d, e.1 ≠ k → g e.2 = f e.2) :
    (d.map fun e => (e.1, g e.2)) = Dict.set (d.map fun e => (e.1, f e.2)) k (g a) := by
  induction d with
  | nil => cases hm
  | cons e d ih =>
    obtain ⟨x, v⟩ := e
    simp only [Dict.WF, Dict.keys_cons, List.nodup_cons] at wf
    rw [Dict.get?_cons] at hm
    by_cases hx : x = k
    · rw [if_pos hx] at hm
      cases hm
      subst hx
      simp only [List.map_cons, Dict.set, if_pos]
      congr 1
      refine List.map_congr_left fun e he => ?_
      rw [hg e (List.mem_cons_of_mem _ he)]
      rintro rfl
      exact wf.1 (List.mem_map_of_mem he)
    · rw [if_neg hx] at hm
      simp only [List.map_cons, Dict.set, if_neg hx]
      rw [ih wf.2 hm fun e he => hg e (List.mem_cons_of_mem _ he),
        hg (x, v) List.mem_cons_self hx]

theorem values_write {o : ClockObjs ι} (h : Good o) {k : ι} {a : Nat}
    (hk : Dict.get? o.dict k = some a) (c : Clock) :
    (o.write a c).values = Dict.set o.values k c := by
  have := set_map o.dict h.wf o.read (o.write a c).read k a hk (fun e he hne => by
    refine read_write_ne _ ?_ _
    rintro rfl
    exact hne (h.inj _ _ _ (Dict.get?_of_mem h.wf he) hk))
  rw [read_write o (h.old _ _ hk)] at this
  exact this

theorem values_delete (o : ClockObjs ι) (k : ι) :
    (o.delete k).values = Dict.delete o.values k := by
  simp only [values, delete, Dict.delete]
  rw [List.filter_map]
  rfl

theorem values_getClock {o : ClockObjs ι} (h : Good o) (i : ι) :
    (o.getClock (fun _ => none) i).1.values = (match Dict.get? o.values i with
      | some _ => o.values
      | none => Dict.set o.values i Clock.new) := by
  rw [getClock_eq, get?_values]
  show (match Dict.get? o.dict i with
      | some a => (o, a)
      | none => (o.alloc i Clock.new, o.heap.length) : ClockObjs ι × Nat).1.values = _
  cases hd : Dict.get? o.dict i with
  | some a => rfl
  | none => exact values_alloc h hd _

end ClockObjs

/-- What the operations do to the clocks of `Verif/Scheduler.lean`, which are values. -/
def Sys.clockStep (s : Sys α κ W) : ClockOp (Option κ) → Sys α κ W
  | .get i => s.getClock i
  | .init i base => match s.initClock i base with
    | .ok s' => s'
    | .error _ => s
  | .incr i ts => match (s.getClock i).incrClock i ts with
    | .ok s' => s'
    | .error _ => s.getClock i
  | .touch i f => (s.getClock i).setClock i
      { (s.getClock i).clock i with time := f ((s.getClock i).clock i).time }
  | .delete i => s.deleteCounts i

theorem Sys.getClock_values (s : Sys α κ W) (o : ClockObjs (Option κ)) (h : ClockObjs.Good o)
    (hs : s.clocks = o.values) (i : Option κ) :
    (s.getClock i).clocks = (o.getClock (fun _ => none) i).1.values ∧
      (s.getClock i).clock i =
        (o.getClock (fun _ => none) i).1.read (o.getClock (fun _ => none) i).2 := by
  have h1 : (s.getClock i).clocks = (o.getClock (fun _ => none) i).1.values := by
    rw [ClockObjs.values_getClock h, ← hs]
    unfold Sys.getClock
    cases Dict.get? s.clocks i <;> rfl
  refine ⟨h1, ?_⟩
  show (match Dict.get? (s.getClock i).clocks i with
    | some c => c | none => Clock.new) = _
  rw [h1, ClockObjs.get?_values]
  have := ClockObjs.getClock_has (fun _ => none) o i
  simp only [Option.getD_none] at this
  rw [this]; rfl

theorem Sys.clockStep_values (s : Sys α κ W) (o : ClockObjs (Option κ)) (h : ClockObjs.Good o)
    (hs : s.clocks = o.values) (op : ClockOp (Option κ)) :
    (s.clockStep op).clocks = (o.step (fun _ => none) op).values := by
  cases op with
  | get i => exact (s.getClock_values o h hs i).1
  | init i base =>
    simp only [Sys.clockStep, Sys.initClock, ClockObjs.step, ClockObjs.initClock]
    rw [hs, ClockObjs.get?_values]
    cases hi : Dict.get? o.dict i with
    | some _ => exact hs
    | none =>
      simp only [Option.map_none]
      cases base with
      | none => exact (ClockObjs.values_alloc h hi _).symm
      | some b =>
        simp only [ClockObjs.get?_values]
        cases hb : Dict.get? o.dict b with
        | none => exact hs
        | some a => exact (ClockObjs.values_alloc h hi _).symm
  | incr i ts =>
    obtain ⟨h1, h2⟩ := s.getClock_values o h hs i
    have hh := ClockObjs.getClock_has (fun _ => none) o i
    simp only [Option.getD_none] at hh
    simp only [Sys.clockStep, Sys.incrClock, ClockObjs.step, ClockObjs.incrClock]
    rw [h2]
    cases ((o.getClock (fun _ => none) i).1.read (o.getClock (fun _ => none) i).2).incr ts with
    | error e => exact h1
    | ok c =>
      show Dict.set (s.getClock i).clocks i c = _
      rw [h1]
      exact (ClockObjs.values_write (h.getClock _ i) hh c).symm
  | touch i f =>
    obtain ⟨h1, h2⟩ := s.getClock_values o h hs i
    have hh := ClockObjs.getClock_has (fun _ => none) o i
    simp only [Option.getD_none] at hh
    simp only [Sys.clockStep, ClockObjs.step, ClockObjs.touch]
    rw [h2]
    show Dict.set (s.getClock i).clocks i _ = _
    rw [h1]
    exact (ClockObjs.values_write (h.getClock _ i) hh _).symm
  | delete i =>
    show Dict.delete s.clocks i = _
    rw [hs]
    exact (ClockObjs.values_delete o i).symm

theorem Sys.clockAfter_values (ops : List (ClockOp (Option κ))) :
    ∀ (s : Sys α κ W) (o : ClockObjs (Option κ)), ClockObjs.Good o → s.clocks = o.values →
      (ops.foldl Sys.clockStep s).clocks = (o.after (fun _ => none) ops).values := by
  induction ops with
  | nil => intro s o _ hs; exact hs
  | cons op ops ih =>
    intro s o h hs
    exact ih _ _ (h.step _ op) (s.clockStep_values o h hs op)

namespace Props

/-- C109: from one call of `get_clock(i)` to another the object is the same, whatever happens
in between to the clocks of the scheduler, unless the id whose clock it is (`i` itself or its
`default_execution_id`) is deleted. -/
theorem C109_same (dflt : ι → Option ι) (o : ClockObjs ι) (i : ι) (ops : List (ClockOp ι))
    (hops : ClockOp.delete ((dflt i).getD i) ∉ ops) :
    (((o.getClock dflt i).1.after dflt ops).getClock dflt i).2 = (o.getClock dflt i).2 := by
  have := ClockObjs.after_keeps (ClockObjs.getClock_has dflt o i) dflt ops hops
  rw [ClockObjs.getClock_eq dflt (ClockObjs.after _ _ _), this]

/-- C109: an object that was handed out for one id is never handed out for an id with another
clock, whatever happens before and in between (deletions included). -/
theorem C109_apart (dflt : ι → Option ι) (d0 : ι) (before ops : List (ClockOp ι)) (i j : ι)
    (hij : (dflt i).getD i ≠ (dflt j).getD j) :
    let o := (ClockObjs.created d0).after dflt before
    (((o.getClock dflt i).1.after dflt ops).getClock dflt j).2 ≠ (o.getClock dflt i).2 := by
  intro o
  have hg : ClockObjs.Good o := (ClockObjs.good_created d0).after dflt before
  have h1 := ((hg.getClock dflt i).only (ClockObjs.getClock_has dflt o i)).after dflt ops
  have h2 := h1.getClock dflt j
  intro e
  exact hij (h2.only _ (e ▸ ClockObjs.getClock_has dflt _ j)).symm

/-- C109: time that passes under ids with other clocks, and runs that start under them, leave
the contents of the object alone; so does everything else but time under `i`. -/
theorem C109_undisturbed (dflt : ι → Option ι) (d0 : ι) (before ops : List (ClockOp ι)) (i : ι)
    (hincr : ∀ j ts, ClockOp.incr j ts ∈ ops → (dflt j).getD j ≠ (dflt i).getD i)
    (htouch : ∀ j f, ClockOp.touch j f ∈ ops → (dflt j).getD j ≠ (dflt i).getD i) :
    let o := (ClockObjs.created d0).after dflt before
    ((o.getClock dflt i).1.after dflt ops).read (o.getClock dflt i).2 =
      (o.getClock dflt i).1.read (o.getClock dflt i).2 := by
  intro o
  have hg : ClockObjs.Good o := (ClockObjs.good_created d0).after dflt before
  have h1 := (hg.getClock dflt i).only (ClockObjs.getClock_has dflt o i)
  revert h1
  generalize (o.getClock dflt i).1 = p, (o.getClock dflt i).2 = a
  intro h1
  induction ops generalizing p with
  | nil => rfl
  | cons op ops ih =>
    have e := ih (fun j ts h => hincr j ts (List.mem_cons_of_mem _ h))
      (fun j f h => htouch j f (List.mem_cons_of_mem _ h)) (p.step dflt op) (h1.step dflt op)
    refine e.trans (ClockObjs.step_read dflt op h1.old fun j hj hja => ?_)
    have hk := (h1.getClock dflt j).only _ (hja ▸ ClockObjs.getClock_has dflt p j)
    rcases hj with ⟨ts, rfl⟩ | ⟨f, rfl⟩
    · exact hincr j ts List.mem_cons_self hk
    · exact htouch j f List.mem_cons_self hk

/-- C109, for ids without an attribute `default_execution_id`: after the context is deleted,
the next clock is a new object with the contents of a new clock, and the old object stands
still for ever. -/
theorem C109_deleted_partial (dflt : ι → Option ι) (d0 : ι) (before ops : List (ClockOp ι)) (i : ι)
    (hi : dflt i = none) :
    let o := (ClockObjs.created d0).after dflt before
    let a := (o.getClock dflt i).2
    let p := (o.getClock dflt i).1.step dflt (.delete i)
    (p.getClock dflt i).2 ≠ a ∧
    (p.getClock dflt i).1.read (p.getClock dflt i).2 = Clock.new ∧
    (p.after dflt ops).read a = (o.getClock dflt i).1.read a := by
  intro o a p
  have hg : ClockObjs.Good o := (ClockObjs.good_created d0).after dflt before
  have hh := ClockObjs.getClock_has dflt o i
  rw [hi] at hh
  have h1 := (hg.getClock dflt i).only hh
  have hp : Dict.get? p.dict i = none := by
    show Dict.get? (Dict.delete _ i) i = none
    rw [Dict.get?_delete, if_pos rfl]
  have hfree : ClockObjs.Only p (fun _ => False) a := ⟨h1.old, fun k hk => by
    have hp1 : Dict.get? (Dict.delete (o.getClock dflt i).1.dict i) k = some a := hk
    rw [Dict.get?_delete] at hp1
    split at hp1
    · cases hp1
    · next hne => exact hne (h1.only _ hp1)⟩
  have hget : p.getClock dflt i = (p.alloc i Clock.new, p.heap.length) := by
    rw [ClockObjs.getClock_eq, hi]
    simp only [Option.getD_none]
    rw [hp]
  have hlen : a < p.heap.length := h1.old
  refine ⟨?_, ?_, ?_⟩
  · rw [hget]
    show p.heap.length ≠ a
    omega
  · rw [hget]
    exact ClockObjs.read_new _ _ _
  · have hread : p.read a = (o.getClock dflt i).1.read a := rfl
    rw [← hread]
    clear hget hp hread hlen
    revert hfree
    generalize p = q
    intro hfree
    induction ops generalizing q with
    | nil => rfl
    | cons op ops ih =>
      refine (ih _ (hfree.step dflt op)).trans ?_
      refine ClockObjs.step_read dflt op hfree.old fun j _ hja => ?_
      exact (hfree.getClock dflt j).only _ (hja ▸ ClockObjs.getClock_has dflt q j)

/-- C109: ids with the same clock get the same object: an id with an attribute
`default_execution_id` and that id, and any two ids with the same attribute. -/
theorem C109_shared (dflt : ι → Option ι) (o : ClockObjs ι) (i j : ι)
    (hij : (dflt i).getD i = (dflt j).getD j) :
    ((o.getClock dflt i).1.getClock dflt j).2 = (o.getClock dflt i).2 := by
  have h := ClockObjs.getClock_has dflt o i
  rw [ClockObjs.getClock_eq dflt _ j, ← hij, h]

/-- C109 is false of ids with an attribute `default_execution_id`: deleting the context of
such an id leaves its clock where it is, with its contents. -/
theorem C109_survives_deletion (dflt : ι → Option ι) (o : ClockObjs ι) (i d : ι)
    (hi : dflt i = some d) (hd : d ≠ i) :
    let g := o.getClock dflt i
    ((g.1.step dflt (.delete i)).getClock dflt i) = (g.1.step dflt (.delete i), g.2) ∧
      (g.1.step dflt (.delete i)).read g.2 = g.1.read g.2 := by
  intro g
  have h := ClockObjs.getClock_has dflt o i
  rw [hi] at h
  simp only [Option.getD_some] at h
  refine ⟨?_, rfl⟩
  rw [ClockObjs.getClock_eq, hi]
  simp only [Option.getD_some]
  have : Dict.get? (g.1.step dflt (.delete i)).dict d = some g.2 := by
    show Dict.get? (Dict.delete g.1.dict i) d = _
    rw [Dict.get?_delete, if_neg hd]
    exact h
  rw [this]

/-- C109: where no id has an attribute `default_execution_id`, the clocks of
`Verif/Scheduler.lean`, which are values, are at every moment the contents of the objects. -/
theorem C109_values (s : Sys α κ W) (d0 : Option κ)
    (hs : s.clocks = [(d0, Clock.new)]) (ops : List (ClockOp (Option κ)))
    (i : Option κ) :
    let o := (ClockObjs.created d0).after (fun _ => none) ops
    let t := ops.foldl Sys.clockStep s
    t.clock i = (o.getClock (fun _ => none) i).1.read (o.getClock (fun _ => none) i).2 := by
  intro o t
  have hg : ClockObjs.Good o := (ClockObjs.good_created d0).after _ ops
  have hv : t.clocks = o.values := Sys.clockAfter_values ops s _ (ClockObjs.good_created d0) hs
  have h2 := (t.getClock_values o hg hv i).2
  rw [← h2]
  show (match Dict.get? t.clocks i with | some c => c | none => Clock.new)
    = (match Dict.get? (t.getClock i).clocks i with | some c => c | none => Clock.new)
  unfold Sys.getClock
  cases h : Dict.get? t.clocks i with
  | some c => simp only [h]
  | none => simp only [Dict.get?_set, if_pos]

/-- C109: the local variable `current_time` of a run is the current time of its clock until
the context is deleted: an object that was obtained for `i` shows at every later moment what
the clock of `i` shows, whatever has happened in between. -/
theorem C109_kept (s : Sys α κ W) (d0 : Option κ)
    (hs : s.clocks = [(d0, Clock.new)]) (before ops : List (ClockOp (Option κ)))
    (i : Option κ) (hops : ClockOp.delete i ∉ ops) :
    let o := (ClockObjs.created d0).after (fun _ => none) before
    (((o.getClock (fun _ => none) i).1.after (fun _ => none) ops).read
      (o.getClock (fun _ => none) i).2) =
      ((before ++ .get i :: ops).foldl Sys.clockStep s).clock i := by
  intro o
  have hsame := C109_same (fun _ => none) o i ops hops
  have hv := C109_values s d0 hs (before ++ .get i :: ops) i
  have ho : (ClockObjs.created d0).after (fun _ => none) (before ++ ClockOp.get i :: ops) =
      (o.getClock (fun _ => none) i).1.after (fun _ => none) ops := by
    simp only [ClockObjs.after, List.foldl_append, List.foldl_cons]
    rfl
  simp only [ho] at hv
  rw [hv, hsame]
  have hg : ClockObjs.Good ((o.getClock (fun _ => none) i).1.after (fun _ => none) ops) :=
    (((ClockObjs.good_created d0).after _ before).getClock _ i).after _ ops
  have hk := ClockObjs.after_keeps (ClockObjs.getClock_has (fun _ => none) o i)
    (fun _ => none) ops hops
  exact (ClockObjs.read_getClock _ _ _ (hg.old _ _ hk)).symm

/-! ## Examples -/

/-- A scheduler has, when it is created, the clocks that `C109_values` and `C109_kept` ask
for. -/
example (g : Graph α) (mode : Mode) (id : Option κ) (unit : Rat) (w : World α κ W) :
    (Sys.new g mode id unit w).clocks = [(id, Clock.new)] := rfl

/-- Ids `1` and `2` have the attribute `default_execution_id = 0`. -/
def sharing : Nat → Option Nat := fun i => if i = 1 ∨ i = 2 then some 0 else none

/-- Two passes under `3`, a run that starts under `4` with the clock of `3`, the deletion of
`4`, and a pass under `1`. -/
def clockHistory : List (ClockOp Nat) :=
  [.incr 3 .pass, .incr 3 .pass, .init 4 (some 3), .incr 4 .pass, .delete 4, .incr 1 .pass]

/-- The history meets the hypotheses of `C109_same` and `C109_undisturbed` for ids `1`, `5`. -/
example : ClockOp.delete ((sharing 1).getD 1) ∉ clockHistory ∧
    ((((ClockObjs.created 9).after sharing clockHistory).getClock sharing 3).1.read
      (((ClockObjs.created 9).after sharing clockHistory).getClock sharing 3).2).time.get .pass = 2 ∧
    (((ClockObjs.created 9).after sharing clockHistory).getClock sharing 1).2 =
      (((ClockObjs.created 9).after sharing clockHistory).getClock sharing 2).2 ∧
    (((ClockObjs.created 9).after sharing clockHistory).getClock sharing 3).2 ≠
      (((ClockObjs.created 9).after sharing clockHistory).getClock sharing 2).2 := by
  refine ⟨?_, by decide +kernel, by decide +kernel, by decide +kernel⟩
  simp [clockHistory, sharing]

/-- C109: as stated it is false: the clock of `1` is that of `2`, and after
`_delete_counts(1)` the clock of `1` still shows the pass that went by under `2`. -/
theorem C109_not_deleted :
    let o := (ClockObjs.created 9).after sharing [.incr 2 .pass, .delete 1]
    ((o.getClock sharing 1).1.read (o.getClock sharing 1).2).time.get .pass = 1 := by
  decide +kernel

/-- The clock that `_init_counts` makes for such an id is not the one that is used: three
ids in the dict, but one clock for two of them. -/
theorem C109_unused :
    let o := (ClockObjs.created 9).after sharing [.get 1, .init 1 none, .incr 1 .pass]
    o.dict = [(9, 0), (0, 1), (1, 2)] ∧ (o.getClock sharing 1).2 = 1 ∧
      (o.read 1).time.get .pass = 1 ∧ (o.read 2).time.get .pass = 0 := by
  decide +kernel

end Props
end GS
