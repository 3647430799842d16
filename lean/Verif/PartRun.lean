import Verif.PartLoop
/-!
# Lemmas: runs, seen from a part of the scheduler
-/

set_option linter.unusedSectionVars false

namespace GS
open Spec TimeScale
variable {α κ W : Type _} [DecidableEq α] [DecidableEq κ]
variable {X : α → Bool} {id : Option κ} {s s' s0 s1 t t' t0 t1 : Sys α κ W}
variable {a a' : RunArgs α κ W} {abs : Bool} {e e' : List α}
variable {w w' : List (List α) → World α κ W} {h h' : History α κ W} {pc pc' : PC α} {k i n : Nat}
variable {ys ys' ys1 : List (List α)} {py py' py1 : List (List (List α))}

/-! ## The part of what is yielded -/

theorem part_snoc (ys : List (List α)) (y : List α) : part X (ys ++ [y]) = part X ys ++ part X [y] := by
  simp [part]

theorem part_one (y : List α) : part X [y] = if y.filter X = [] then [] else [y.filter X] := by
  unfold part
  by_cases h : y.filter X = []
  · rw [if_pos h]; simp only [List.map_cons, List.map_nil, h]; rfl
  · rw [if_neg h]; simp [h]

theorem part_one_congr {y y' : List α} (h : y'.filter X = y.filter X) : part X [y'] = part X [y] := by
  rw [part_one, part_one, h]

/-- `y` added to the last pass, unless it is empty. -/
def addPart (l : List (List (List α))) (y : List α) : List (List (List α)) :=
  if y = [] then l else addToLast l y

theorem addToLast_part (py : List (List (List α))) (y : List α) :
    (addToLast py y).map (part X) = addPart (py.map (part X)) (y.filter X) := by
  unfold addPart
  induction py with
  | nil => simp [addToLast]
  | cons p py ih =>
    cases py with
    | nil =>
      simp only [addToLast, List.map_cons, List.map_nil, part_snoc, part_one]
      split <;> simp
    | cons q py =>
      simp only [addToLast, List.map_cons] at ih ⊢
      rw [ih]
      split <;> simp

/-! ## Positions of a run -/

/-- A run in which termination conditions are not satisfied: `Pos k none` after `k` passes,
`Pos k (some i)` in the next pass before the consideration set at `i`. -/
inductive Pos (w : List (List α) → World α κ W) (a : RunArgs α κ W) (s0 : Sys α κ W) :
    Nat → Option Nat → List (List α) → List (List (List α)) → Sys α κ W → Prop
  | start {s : Sys α κ W} : s0.start a = (s, .ok false) → Pos w a s0 0 none [] [] s
  | pass {k : Nat} {ys : List (List α)} {py : List (List (List α))} {st} {f} {s : Sys α κ W} :
      Pos w a s0 k none ys py s → Evaluated (Terms a) s.store st →
      Dict.get? s.countsTotal a.id = some f →
      Pos w a s0 k (some 0) ys (py ++ [[]]) ((s.putStore st).putTotal a.id (resetF .pass f))
  | silent {k i : Nat} {ys : List (List α)} {py : List (List (List α))} {st} {layer : List α} {s s' : Sys α κ W} :
      Pos w a s0 k (some i) ys py s →
      s.queue[i]? = some layer → Evaluated (Terms a) s.store st →
      Loop a.id layer (s.putStore st) [] s' [] → Pos w a s0 k (some (i + 1)) ys py s'
  | shown {k i : Nat} {ys : List (List α)} {py : List (List (List α))} {st} {layer : List α} {e : List α} {l} {c : Clock} {s s' : Sys α κ W} :
      Pos w a s0 k (some i) ys py s →
      s.queue[i]? = some layer → Evaluated (Terms a) s.store st →
      Loop a.id layer (s.putStore st) [] s' e →
      (s'.clock a.id).incr .consideration_set_execution = .ok c →
      Pos w a s0 k (some (i + 1)) (ys ++ [e]) (addToLast py e)
        (Sys.setClock { s'.putList a.id l with world := w (ys ++ [e]) } a.id c)
  | over {k i : Nat} {ys : List (List α)} {py : List (List (List α))} {s : Sys α κ W} :
      Pos w a s0 k (some i) ys py s → s.queue[i]? = none →
      Pos w a s0 k (some (i + 1)) ys py s
  | passEnd {k i : Nat} {ys : List (List α)} {py : List (List (List α))} {c : Clock} {s : Sys α κ W} :
      Pos w a s0 k (some i) ys py s → s.queue[i]? = none →
      (s.clock a.id).incr .pass = .ok c → Pos w a s0 (k + 1) none ys py (s.setClock a.id c)
  | passEmpty {k i : Nat} {ys : List (List α)} {py : List (List (List α))} {l} {c1 c2 : Clock} {s : Sys α κ W} :
      Pos w a s0 k (some i) ys py s →
      s.queue[i]? = none → (s.clock a.id).incr .consideration_set_execution = .ok c1 →
      c1.incr .pass = .ok c2 →
      Pos w a s0 (k + 1) none (ys ++ [[]]) (addToLast py [])
        (Sys.setClock { s.putList a.id l with world := w (ys ++ [[]]) } a.id c2)

/-- What a part sees of a change of the state that is not a choice of nodes. -/
structure Kept (id : Option κ) (s s' : Sys α κ W) : Prop where
  queue : s'.queue = s.queue
  nodes : s'.nodes = s.nodes
  conds : s'.conds = s.conds
  store : s'.store = s.store
  total : Dict.get? s'.countsTotal id = Dict.get? s.countsTotal id
  useable : Dict.get? s'.countsUseable id = Dict.get? s.countsUseable id

/-- The clock has advanced by `d`, leaving aside consideration set executions. -/
def Advanced (d : List TimeScale) (c c' : Clock) : Prop :=
  ∀ log, Shows c log → ∃ log', Shows c' log' ∧ log'.filter coarse = log.filter coarse ++ d

theorem Kept.both {d : List TimeScale} (h : Kept id s s') (h' : Kept id t t')
    (c : Advanced d (s.clock id) (s'.clock id)) (c' : Advanced d (t.clock id) (t'.clock id))
    (hp : PartAgrees X id s t) : PartAgrees X id s' t' where
  queue i := by rw [h.queue, h'.queue]; exact hp.queue i
  nodes := by rw [h.nodes, h'.nodes]; exact hp.nodes
  conds n hn := by
    obtain ⟨c, c', h1, h2, h3⟩ := hp.conds n hn
    refine ⟨c, c', by rw [h.conds]; exact h1, by rw [h'.conds]; exact h2, ?_⟩
    have h4 := h3.left h1 hn h.conds (by rw [h.store]) (by rw [h.store]) fun m o d k _ _ => by rw [h.store]
    exact (h4.symm.left h2 hn h'.conds (by rw [h'.store]) (by rw [h'.store])
      fun m o d k _ _ => by rw [h'.store]).symm
  total := by rw [h.total, h'.total]; exact hp.total
  useable := by rw [h.useable, h'.useable]; exact hp.useable
  clock := by
    obtain ⟨l, l', h1, h2, h3⟩ := hp.clock
    obtain ⟨m, g1, g2⟩ := c l h1
    obtain ⟨m', g1', g2'⟩ := c' l' h2
    refine ⟨m, m', g1, g1', ?_⟩
    show m'.filter coarse = m.filter coarse
    have h3 : l'.filter coarse = l.filter coarse := h3
    rw [g2, g2', h3]

theorem advanced_refl (c : Clock) : Advanced [] c c := fun log h => ⟨log, h, by simp⟩

theorem advanced_cse {c c' : Clock} (h : c.incr consideration_set_execution = .ok c') :
    Advanced [] c c' := fun log hl => ⟨_, hl.step (by decide) h, by simp [coarse]⟩

theorem advanced_pass {c c' : Clock} (h : c.incr pass = .ok c') : Advanced [pass] c c' :=
  fun log hl => ⟨_, hl.step (by decide) h, by simp [coarse]⟩

theorem advanced_empty {c c1 c2 : Clock} (h : c.incr consideration_set_execution = .ok c1)
    (h2 : c1.incr pass = .ok c2) : Advanced [pass] c c2 :=
  fun log hl => ⟨_, (hl.step (by decide) h).step (by decide) h2, by simp [coarse]⟩

theorem clock_of_setClock (s : Sys α κ W) (c : Clock) : (s.setClock id c).toView.clock id = c :=
  Sys.clock_setClock s id c

/-- The end of a pass. -/
theorem Pos.ends (h : Pos w a s0 (k + 1) none ys py s) : ∃ i ys1 py1 s1,
    Pos w a s0 k (some i) ys1 py1 s1 ∧ s1.queue[i]? = none ∧ Kept a.id s1 s ∧
    Advanced [TimeScale.pass] (s1.clock a.id) (s.clock a.id) ∧ part X ys = part X ys1 ∧
    py.map (part X) = py1.map (part X) := by
  cases h with
  | passEnd h1 h2 h3 =>
    refine ⟨_, _, _, _, h1, h2, ⟨rfl, rfl, rfl, rfl, rfl, rfl⟩, ?_, rfl, rfl⟩
    rw [clock_of_setClock]; exact advanced_pass h3
  | passEmpty h1 h2 h3 h4 =>
    refine ⟨_, _, _, _, h1, h2, ⟨rfl, rfl, rfl, rfl, rfl, rfl⟩, ?_, ?_, ?_⟩
    · rw [clock_of_setClock]; exact advanced_empty h3 h4
    · rw [part_snoc, part_one]; simp
    · rw [addToLast_part]; simp [addPart]

theorem Pos.pad (h : Pos w a s0 k (some i) ys py s) (hq : s.queue[i]? = none) (d : Nat) :
    Pos w a s0 k (some (i + d)) ys py s ∧ s.queue[i + d]? = none := by
  induction d with
  | zero => exact ⟨h, hq⟩
  | succ d ih =>
    refine ⟨.over ih.1 ih.2, ?_⟩
    rw [List.getElem?_eq_none_iff] at hq ⊢; omega

/-- A consideration set, or nothing beyond the end of the queue. -/
theorem Pos.moves (h : Pos w a s0 k (some (i + 1)) ys py s) : ∃ ys1 py1 s1 s2 st e,
    Pos w a s0 k (some i) ys1 py1 s1 ∧ Evaluated (Terms a) s1.store st ∧
    Loop a.id (setAt s1.queue i) (s1.putStore st) [] s2 e ∧ Kept a.id s2 s ∧
    Advanced [] (s2.clock a.id) (s.clock a.id) ∧ part X ys = part X (ys1 ++ [e]) ∧
    py.map (part X) = addPart (py1.map (part X)) (e.filter X) := by
  cases h with
  | @silent _ _ _ _ st layer s1 _ h1 h2 h3 h4 =>
    refine ⟨_, _, _, _, st, [], h1, h3, ?_, ⟨rfl, rfl, rfl, rfl, rfl, rfl⟩, advanced_refl _, ?_, ?_⟩
    · rw [setAt, h2]; exact h4
    · rw [part_snoc, part_one]; simp
    · simp [addPart]
  | @shown _ _ ys py st layer e l c s1 s2 h1 h2 h3 h4 h5 =>
    refine ⟨_, _, _, s2, st, e, h1, h3, ?_, ⟨rfl, rfl, rfl, rfl, rfl, rfl⟩, ?_, rfl, ?_⟩
    · rw [setAt, h2]; exact h4
    · rw [clock_of_setClock]; exact advanced_cse h5
    · rw [addToLast_part]
  | over h1 h2 =>
    refine ⟨_, _, _, _, s.store, [], h1, .refl, ?_, ⟨rfl, rfl, rfl, rfl, rfl, rfl⟩, advanced_refl _, ?_, ?_⟩
    · rw [setAt, h2]; exact .last .nil
    · rw [part_snoc, part_one]; simp
    · simp [addPart]

theorem start_world {s : Sys α κ W} (h : s0.start a = (s, .ok abs)) : s.world = s0.world :=
  (Sys.start_ok h).world

/-- The outside world is what the consumer makes of it. -/
theorem Pos.world {o : Option Nat} (h0 : SameWorld X s0.world (w [])) (h : Pos w a s0 k o ys py s) :
    SameWorld X s.world (w ys) := by
  have refl : ∀ x : World α κ W, SameWorld X x x := fun x =>
    ⟨fun _ _ _ => rfl, fun _ _ _ => rfl, fun _ _ _ _ _ => rfl⟩
  induction h with
  | start hs => rw [start_world hs]; exact h0
  | pass _ _ _ ih => exact ih
  | silent _ _ _ hl ih => rw [hl.world]; exact ih
  | shown => exact refl _
  | over _ _ ih => exact ih
  | passEnd _ _ _ ih => exact ih
  | passEmpty => exact refl _

/-- The conditions are those of the start. -/
theorem Pos.conds {o : Option Nat} (h : Pos w a s0 k o ys py s) :
    ∃ s1, s0.start a = (s1, .ok false) ∧ s.conds = s1.conds := by
  induction h with
  | start hs => exact ⟨_, hs, rfl⟩
  | pass _ _ _ ih => exact ih
  | silent _ _ _ hl ih => rw [hl.conds]; exact ih
  | shown _ _ _ hl _ ih =>
    obtain ⟨s1, h1, h2⟩ := ih
    exact ⟨s1, h1, hl.conds.trans h2⟩
  | over _ _ ih => exact ih
  | passEnd _ _ _ ih => exact ih
  | passEmpty _ _ _ _ ih => exact ih

theorem Spec.Evaluated.owner {P : Cond α κ W → Prop} {st st' : Store α κ}
    (h : Evaluated P st st') : st'.owner = st.owner := by
  induction h with
  | refl => rfl
  | eval v id c _ _ ih => exact (eval_store v id c _).owner.trans ih

/-- The termination conditions leave the counters of the part alone. -/
theorem Pos.counts {o : Option Nat} {st} (h : Pos w a s0 k o ys py s)
    (hE : ∀ s1, s0.start a = (s1, .ok false) → EndsOutside X a s1)
    (he : Evaluated (Terms a) s.store st) : SameCounts X id s st := by
  intro m o d j hm hd
  obtain ⟨s1, h1, h2⟩ := h.conds
  rw [h2] at hd
  obtain ⟨k1, k2⟩ := hE s1 h1 m o d j hm hd
  exact he.without (fun d hd => by rcases hd with rfl | rfl; exact k1; exact k2) _

/-- Two runs agree on the part at corresponding positions. -/
theorem Pos.agree (hid : a'.id = a.id)
    (hE : ∀ s1, s0.start a = (s1, .ok false) → EndsOutside X a s1)
    (hE' : ∀ t1, t0.start a' = (t1, .ok false) → EndsOutside X a' t1)
    (hs : ∀ s1 t1, s0.start a = (s1, .ok false) → t0.start a' = (t1, .ok false) →
      PartAgrees X a.id s1 t1)
    (hw : ∀ ys ys', part X ys' = part X ys → SameWorld X (w ys) (w' ys'))
    (h0 : SameWorld X s0.world (w [])) (h0' : SameWorld X t0.world (w' [])) (k : Nat) :
    (∀ {ys py s ys' py' t}, Pos w a s0 k none ys py s → Pos w' a' t0 k none ys' py' t →
      PartAgrees X a.id s t ∧ part X ys' = part X ys ∧ py'.map (part X) = py.map (part X)) ∧
    (∀ i {ys py s ys' py' t}, Pos w a s0 k (some i) ys py s → Pos w' a' t0 k (some i) ys' py' t →
      PartAgrees X a.id s t ∧ part X ys' = part X ys ∧ py'.map (part X) = py.map (part X)) := by
  have inside : ∀ k, (∀ {ys py s ys' py' t}, Pos w a s0 k none ys py s →
      Pos w' a' t0 k none ys' py' t →
      PartAgrees X a.id s t ∧ part X ys' = part X ys ∧ py'.map (part X) = py.map (part X)) →
      (∀ i {ys py s ys' py' t}, Pos w a s0 k (some i) ys py s → Pos w' a' t0 k (some i) ys' py' t →
      PartAgrees X a.id s t ∧ part X ys' = part X ys ∧ py'.map (part X) = py.map (part X)) := by
    intro k hk i
    induction i with
    | zero =>
      intro ys py s ys' py' t h h'
      cases h with
      | @pass _ _ _ st f s h1 h2 h3 =>
        cases h' with
        | @pass _ _ _ st' f' t h1' h2' h3' =>
          obtain ⟨k1, k2, k3⟩ := hk h1 h1'
          have k4 := (k1.putStore h2.owner h2.fresh (h1.counts hE h2)).symm
          have k4 := (k4.putStore h2'.owner h2'.fresh (h1'.counts hE' h2')).symm
          refine ⟨⟨k1.queue, k1.nodes, fun n hn => ?_, ?_, k1.useable, k1.clock⟩, k2, by simp [k3]⟩
          · obtain ⟨c, c', q1, q2, q3⟩ := k4.conds n hn
            have q4 := q3.left (s1 := (s.putStore st).putTotal a.id (resetF .pass f)) q1 hn rfl rfl rfl
              fun _ _ _ _ _ _ => rfl
            exact ⟨c, c', q1, q2, (q4.symm.left (s1 := (t.putStore st').putTotal a'.id (resetF .pass f'))
              q2 hn rfl rfl rfl fun _ _ _ _ _ _ => rfl).symm⟩
          · obtain ⟨g, g', l1, l2, l3⟩ := k1.total
            rw [h3] at l1; cases l1
            rw [hid, l2] at h3'; cases h3'
            refine ⟨resetF .pass f, resetF .pass f', Dict.get?_set_self .., ?_, fun ts n hn => ?_⟩
            · rw [hid]; exact Dict.get?_set_self ..
            · simp [resetF, l3 ts n hn]
    | succ i ih =>
      intro ys py s ys' py' t h h'
      obtain ⟨ys1, py1, s1, s2, st, e, g1, g2, g3, g4, g5, g6, g7⟩ := h.moves (X := X)
      obtain ⟨ys1', py1', t1, t2, st', e', g1', g2', g3', g4', g5', g6', g7'⟩ := h'.moves (X := X)
      rw [hid] at g3' g4' g5'
      obtain ⟨k1, k2, k3⟩ := ih g1 g1'
      have hw1 : SameWorld X s1.world t1.world :=
        ((g1.world h0).trans (hw _ _ k2)).trans (g1'.world h0').symm
      have k4 : PartAgrees X a.id (s1.putStore st) (t1.putStore st') :=
        ((k1.putStore g2.owner g2.fresh (g1.counts hE g2)).symm.putStore g2'.owner g2'.fresh
          (g1'.counts hE' g2')).symm
      obtain ⟨k5, k6⟩ := g3.both (k1.queue i) g3' k4 hw1 rfl
      refine ⟨g4.both g4' g5 g5' k5, ?_, ?_⟩
      · rw [g6, g6', part_snoc, part_snoc, k2, part_one_congr k6]
      · rw [g7, g7', k3, k6]
  induction k with
  | zero =>
    refine ⟨?_, inside 0 ?_⟩
    all_goals
      intro ys py s ys' py' t h h'
      cases h with
      | start g =>
        cases h' with
        | start g' => exact ⟨hs _ _ g g', rfl, rfl⟩
  | succ k ih =>
    have key : ∀ {ys py s ys' py' t}, Pos w a s0 (k + 1) none ys py s →
        Pos w' a' t0 (k + 1) none ys' py' t →
        PartAgrees X a.id s t ∧ part X ys' = part X ys ∧ py'.map (part X) = py.map (part X) := by
      intro ys py s ys' py' t h h'
      obtain ⟨i, ys1, py1, s1, g1, g2, g3, g4, g5, g6⟩ := h.ends (X := X)
      obtain ⟨i', ys1', py1', t1, g1', g2', g3', g4', g5', g6'⟩ := h'.ends (X := X)
      have p1 := (g1.pad g2 i').1
      have p2 := (g1'.pad g2' i).1
      rw [Nat.add_comm i' i] at p2
      obtain ⟨k1, k2, k3⟩ := ih.2 _ p1 p2
      rw [hid] at g3' g4'
      exact ⟨g3.both g3' g4 g4' k1, by rw [g5, g5', k2], by rw [g6, g6', k3]⟩
    exact ⟨key, inside (k + 1) key⟩

end GS
