import Verif.Spec.TimeObjs
/-!
# C124: the current time is live, recorded times are snapshots
-/

set_option linter.unusedSectionVars false

namespace GS.Props
open Spec TimeObjs

/-- Clocks whose objects were not touched look the same. -/
theorem seen_congr {o o' : TimeObjs} {c : ClockRef} (h1 : o'.read c.cur = o.read c.cur)
    (h2 : ∀ x, c.prev = some x → o'.read x = o.read x) : seen o' c = seen o c := by
  unfold seen
  rw [h1]
  cases hp : c.prev with
  | none => rfl
  | some x => simp [h2 x hp]

theorem map_seen {o o' : TimeObjs} (h : Good o)
    (hr : ∀ x, x < o.times.length → o'.read x = o.read x) :
    o.clocks.map (seen o') = o.clocks.map (seen o) ∧ o.stamps.map o'.read = o.stamps.map o.read := by
  constructor
  · apply List.map_congr_left
    intro c hc
    obtain ⟨i, hi⟩ := List.getElem?_of_mem hc
    exact seen_congr (hr _ (h.cur i c hi)) fun x hx => hr _ (h.prev i c x hi hx).1
  · apply List.map_congr_left
    intro x hx
    exact hr _ (h.stamps x hx).1

theorem map_set_seen {o o' : TimeObjs} (h : Good o) {i : Nat} {c c' : ClockRef}
    (hc : o.clocks[i]? = some c) (hr : ∀ x, x < o.times.length → x ≠ c.cur → o'.read x = o.read x) :
    (o.clocks.set i c').map (seen o') = (o.clocks.map (seen o)).set i (seen o' c') ∧
      o.stamps.map o'.read = o.stamps.map o.read := by
  constructor
  · apply List.ext_getElem?
    intro j
    rw [List.getElem?_map, List.getElem?_set, List.getElem?_set, List.length_map]
    by_cases hj : i = j
    · subst hj
      rw [if_pos rfl, if_pos rfl]
      split <;> rfl
    · rw [if_neg hj, if_neg hj, List.getElem?_map]
      cases hd : o.clocks[j]? with
      | none => rfl
      | some d =>
        simp only [Option.map_some, Option.some.injEq]
        refine seen_congr (hr _ (h.cur j d hd) fun e => hj ((h.apart j i d c hd hc e).symm)) ?_
        intro x hx
        obtain ⟨p1, p2⟩ := h.prev j d x hd hx
        exact hr _ p1 fun e => p2 i c hc e.symm
  · apply List.map_congr_left
    intro x hx
    obtain ⟨p1, p2⟩ := h.stamps x hx
    exact hr _ p1 fun e => p2 i c hc e.symm

theorem seen_get (o : TimeObjs) (i : Nat) :
    (allSeen o).clocks[i]? = (o.clocks[i]?).map (seen o) := by
  simp [allSeen]

theorem allSeen_step {o : TimeObjs} (h : Good o) (op : TimeOp) :
    allSeen (o.step op) = (allSeen o).step op := by
  have happ : ∀ (ts : List Time) (cs : List ClockRef) (ss : List Nat) x, x < o.times.length →
      TimeObjs.read ⟨o.times ++ ts, cs, ss⟩ x = o.read x := fun ts cs ss x hx => TimeObjs.read_append hx
  have hnew : ∀ (ts : List Time) (cs : List ClockRef) (ss : List Nat) k,
      TimeObjs.read ⟨o.times ++ ts, cs, ss⟩ (o.times.length + k) = ts.getD k Time.zero := by
    intro ts cs ss k
    simp only [TimeObjs.read, List.getD]
    rw [List.getElem?_append_right (Nat.le_add_right _ _), Nat.add_sub_cancel_left]
  cases op with
  | create =>
    obtain ⟨h1, h2⟩ := map_seen (o' := o.create) h (fun x hx => happ _ _ _ x hx)
    simp only [TimeObjs.step, TimeValues.step, allSeen, create, List.map_append, List.map_cons,
      List.map_nil] at h1 h2 ⊢
    rw [h1, h2]
    congr 2
    simp only [seen, Option.map_none, Clock.new, List.cons.injEq, and_true]
    have := hnew [Time.zero] (o.clocks ++ [⟨Clock.initTree, o.times.length, none, o.times.length⟩])
      o.stamps 0
    simp only [Nat.add_zero, List.getD_cons_zero] at this
    rw [this]
  | copy i =>
    simp only [TimeObjs.step, TimeValues.step, seen_get]
    cases hc : o.clocks[i]? with
    | none => rfl
    | some c =>
      simp only [Option.map_some]
      obtain ⟨h1, h2⟩ := map_seen (o' := o.copy c) h (fun x hx => by
        unfold TimeObjs.copy; simp only [List.append_assoc]; exact happ _ _ _ x hx)
      have e : seen (o.copy c) ⟨c.tree, o.times.length, c.prev.map fun _ => o.times.length + 2,
          if c.simple = c.cur then o.times.length else o.times.length + 1⟩ = seen o c := by
        unfold TimeObjs.copy
        simp only [List.append_assoc, seen]
        have a0 := hnew ([o.read c.cur, o.read c.simple] ++ (c.prev.map o.read).toList)
          (o.clocks ++ [⟨c.tree, o.times.length, c.prev.map fun _ => o.times.length + 2,
            if c.simple = c.cur then o.times.length else o.times.length + 1⟩]) o.stamps
        have a1 := a0 0
        have a2 := a0 2
        simp only [Nat.add_zero] at a1
        rw [a1]
        cases hp : c.prev with
        | none => simp
        | some x => simp [hp] at a2 ⊢; exact a2
      have ec : (o.copy c).clocks = o.clocks ++ [⟨c.tree, o.times.length,
        c.prev.map fun _ => o.times.length + 2,
        if c.simple = c.cur then o.times.length else o.times.length + 1⟩] := rfl
      have es : (o.copy c).stamps = o.stamps := rfl
      simp only [allSeen, ec, es, List.map_append, List.map_cons, List.map_nil, h1, h2, e]
  | incr i ts =>
    simp only [TimeObjs.step, TimeValues.step, seen_get]
    cases hc : o.clocks[i]? with
    | none => rfl
    | some c =>
      simp only [Option.map_some, Clock.incr, seen, TimeObjs.incr]
      cases ht : c.tree.incr Clock.maxDepth ts with
      | error e => rfl
      | ok t =>
        simp only
        have hcur := h.cur i c hc
        generalize ho : (⟨(o.times ++ [o.read c.cur]).set c.cur ((o.read c.cur).incr ts),
          o.clocks.set i { c with tree := t, prev := some o.times.length }, o.stamps⟩ : TimeObjs) = o'
        have hr : ∀ x, x < o.times.length → x ≠ c.cur → o'.read x = o.read x := by
          intro x hx hne
          subst ho
          simp [TimeObjs.read, List.getD, List.getElem?_set_ne (Ne.symm hne), List.getElem?_append_left hx]
        obtain ⟨h1, h2⟩ := map_set_seen h hc hr
          (c' := { c with tree := t, prev := some o.times.length })
        have e : seen o' { c with tree := t, prev := some o.times.length } =
            ⟨t, (o.read c.cur).incr ts, some (o.read c.cur)⟩ := by
          subst ho
          unfold seen
          have hlt : c.cur < o.times.length + 1 := by omega
          have hne : c.cur ≠ o.times.length := by omega
          simp [TimeObjs.read, List.getD, hlt, hne]
        have ec : o'.clocks = o.clocks.set i { c with tree := t, prev := some o.times.length } := by
          subst ho; rfl
        have es : o'.stamps = o.stamps := by subst ho; rfl
        rw [e] at h1
        simp only [allSeen, ec, es, h1, h2]
  | touch i f =>
    simp only [TimeObjs.step, TimeValues.step, seen_get]
    cases hc : o.clocks[i]? with
    | none => rfl
    | some c =>
      simp only [Option.map_some]
      have hcur := h.cur i c hc
      have hr : ∀ x, x < o.times.length → x ≠ c.cur → (o.touch c f).read x = o.read x := by
        intro x hx hne
        simp [TimeObjs.touch, TimeObjs.read, List.getD, List.getElem?_set_ne (Ne.symm hne)]
      obtain ⟨h1, h2⟩ := map_set_seen h hc hr (c' := c)
      have hself : o.clocks.set i c = o.clocks := by
        apply List.ext_getElem?
        intro j
        rw [List.getElem?_set]
        split
        · rename_i e; subst e; rw [hc, if_pos (List.getElem?_eq_some_iff.mp hc).1]
        · rfl
      rw [hself] at h1
      have e : seen (o.touch c f) c = { seen o c with time := f (seen o c).time } := by
        unfold seen
        have hp : c.prev.map (o.touch c f).read = c.prev.map o.read := by
          cases hp : c.prev with
          | none => rfl
          | some x =>
            obtain ⟨p1, p2⟩ := h.prev i c x hc hp
            simp only [Option.map_some]
            rw [hr x p1 fun e => p2 i c hc e.symm]
        rw [hp]
        simp [TimeObjs.touch, TimeObjs.read, List.getD, List.getElem?_set, hcur]
      rw [e] at h1
      have ec : (o.touch c f).clocks = o.clocks := rfl
      have es : (o.touch c f).stamps = o.stamps := rfl
      simp only [allSeen, ec, es, h1, h2]
  | stamp i =>
    simp only [TimeObjs.step, TimeValues.step, seen_get]
    cases hc : o.clocks[i]? with
    | none => rfl
    | some c =>
      simp only [Option.map_some]
      obtain ⟨h1, h2⟩ := map_seen (o' := o.stamp c) h (fun x hx => happ _ _ _ x hx)
      have ec : (o.stamp c).clocks = o.clocks := rfl
      have es : (o.stamp c).stamps = o.stamps ++ [o.times.length] := rfl
      have e : (o.stamp c).read o.times.length = o.read c.cur := by
        have := hnew [o.read c.cur] o.clocks (o.stamps ++ [o.times.length]) 0
        simp only [Nat.add_zero, List.getD_cons_zero] at this
        exact this
      simp only [allSeen, ec, es, h1, h2, List.map_append, List.map_cons, List.map_nil, e, seen]

/-- C124: after any history of operations, what a user sees of the clocks and of the recorded
times is what a program without objects computes. -/
theorem C124_values (ops : List TimeOp) :
    allSeen (empty.after ops) = TimeValues.after ⟨[], []⟩ ops := by
  have key : ∀ (o : TimeObjs), Good o → allSeen (o.after ops) = (allSeen o).after ops := by
    induction ops with
    | nil => intro o _; rfl
    | cons op ops ih =>
      intro o h
      show allSeen ((o.step op).after ops) = ((allSeen o).step op).after ops
      rw [ih _ (h.step op), allSeen_step h op]
  exact key empty good_empty

/-- C124: `clock.time` is one object for ever, and `simple_time` refers to it. -/
theorem C124_live (before ops : List TimeOp) {i : Nat} {c : ClockRef}
    (hc : (empty.after before).clocks[i]? = some c) :
    ∃ c', ((empty.after before).after ops).clocks[i]? = some c' ∧ c'.cur = c.cur ∧
      c'.simple = c'.cur := by
  have hg := good_empty.after before
  generalize empty.after before = o at hc hg
  induction ops generalizing o c with
  | nil => exact ⟨c, hc, rfl, hg.simple i c hc⟩
  | cons op ops ih =>
    obtain ⟨d, hd, e1, _⟩ := TimeObjs.step_cur o op hc
    obtain ⟨c', h1, h2, h3⟩ := ih (o.step op) hd (hg.step op)
    exact ⟨c', h1, by rw [h2, e1], h3⟩

/-- C124: an object that was recorded, or that was `previous_time`, is never changed
afterwards. -/
theorem C124_snapshot (before ops : List TimeOp) {x : Nat}
    (hx : x ∈ (empty.after before).stamps ∨
      ∃ c ∈ (empty.after before).clocks, c.prev = some x) :
    ((empty.after before).after ops).read x = (empty.after before).read x := by
  have hg := good_empty.after before
  generalize empty.after before = o at hx hg
  have hk : x < o.times.length ∧ ∀ (j : Nat) (d : ClockRef), o.clocks[j]? = some d → d.cur ≠ x := by
    rcases hx with hx | ⟨c, hc, hp⟩
    · exact hg.stamps x hx
    · obtain ⟨i, hi⟩ := List.getElem?_of_mem hc
      exact hg.prev i c x hi hp
  clear hx
  induction ops generalizing o with
  | nil => rfl
  | cons op ops ih =>
    obtain ⟨h1, h2, h3⟩ := TimeObjs.step_read op hk.1 hk.2
    show ((o.step op).after ops).read x = o.read x
    rw [ih (o.step op) (hg.step op) ⟨h2, h3⟩, h1]

/-! ## Concrete case -/

/-- A clock, a recorded time, one unit of time, a copy of the clock, and time passing under
both of them. -/
def twoClockOps : List TimeOp :=
  [.create, .touch 0 (fun t => { t with absolute_enabled := true }), .stamp 0,
   .incr 0 .consideration_set_execution, .copy 0, .incr 1 .pass, .stamp 1, .incr 0 .pass]

/-- Two clocks, two recorded times; the clocks have three and three objects. -/
example : (empty.after twoClockOps).stamps = [1, 7] ∧
    (empty.after twoClockOps).clocks.map (fun c => (c.cur, c.prev, c.simple)) =
      [(0, some 8, 0), (3, some 6, 3)] ∧
    (empty.after twoClockOps).stamps.map (fun x => ((empty.after twoClockOps).read x).absolute) = [0, 1] ∧
    (empty.after twoClockOps).clocks.map (fun c => ((empty.after twoClockOps).read c.simple).at_ .pass) =
      [1, 1] := by decide +kernel

example := C124_snapshot twoClockOps [.incr 0 .pass] (x := 8)
  (.inr ((by decide +kernel : (empty.after twoClockOps).clocks.any (fun c => c.prev == some 8) = true) |>
    List.any_eq_true.mp |> fun ⟨c, hc, hp⟩ => ⟨c, hc, by simpa using hp⟩))

example := C124_snapshot twoClockOps [.incr 1 .pass] (x := 1) (.inl (by decide +kernel))

end GS.Props
