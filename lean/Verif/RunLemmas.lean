import Verif.SchedLemmas
import Verif.Spec.Run
/-!
# Invariants of runs
-/

set_option linter.unusedSectionVars false

namespace GS
open Spec
variable {α κ W β : Type _} [DecidableEq α] [DecidableEq κ]

/-! ## Lists -/

theorem Spec.afterLast_nil (p : β → Bool) : afterLast p ([] : List β) = [] := rfl

theorem Spec.afterLast_snoc (p : β → Bool) (l : List β) (x : β) :
    afterLast p (l ++ [x]) = if p x then [] else afterLast p l ++ [x] := by
  unfold afterLast
  rw [List.reverse_append, List.reverse_singleton, List.singleton_append, List.takeWhile_cons]
  cases p x <;> simp

theorem Spec.afterLast_split (p : β → Bool) (l : List β) :
    ∃ pre, l = pre ++ afterLast p l ∧ (pre = [] ∨ ∃ pre' x, pre = pre' ++ [x] ∧ p x = true) ∧
      ∀ x ∈ afterLast p l, p x = false := by
  induction l using snocInd with
  | h0 => exact ⟨[], rfl, .inl rfl, by simp [afterLast_nil]⟩
  | h1 l x ih =>
    obtain ⟨pre, h1, h2, h3⟩ := ih
    rw [afterLast_snoc]
    cases hp : p x with
    | true => exact ⟨l ++ [x], by simp, .inr ⟨l, x, rfl, hp⟩, by simp⟩
    | false =>
      refine ⟨pre, ?_, h2, ?_⟩
      · simp only [Bool.false_eq_true, if_false]
        rw [← List.append_assoc, ← h1]
      · intro y hy
        simp only [Bool.false_eq_true, if_false, List.mem_append, List.mem_singleton] at hy
        rcases hy with hy | hy
        · exact h3 y hy
        · rw [hy]; exact hp

theorem Spec.afterLast_append_of_none (p : β → Bool) (l m : List β) (h : ∀ x ∈ m, p x = false) :
    afterLast p (l ++ m) = afterLast p l ++ m := by
  induction m using snocInd with
  | h0 => simp
  | h1 m x ih =>
    have h1 : ∀ y ∈ m, p y = false := fun y hy => h y (by simp [hy])
    have h2 : p x = false := h x (by simp)
    rw [← List.append_assoc, afterLast_snoc, h2, ih h1]
    simp

theorem Spec.afterLast_append_cons (p : β → Bool) (l m : List β) (x : β) (hx : p x = true)
    (h : ∀ x ∈ m, p x = false) : afterLast p (l ++ x :: m) = m := by
  have : l ++ x :: m = (l ++ [x]) ++ m := by simp
  rw [this, afterLast_append_of_none p _ m h, afterLast_snoc, hx]
  simp

theorem Spec.selections_append (h k : History α κ W) :
    selections (h ++ k) = selections h ++ selections k := List.filterMap_append

theorem Spec.yields_append (h k : History α κ W) : yields (h ++ k) = yields h ++ yields k :=
  List.filterMap_append

theorem Spec.selections_nil : selections ([] : History α κ W) = [] := rfl
theorem Spec.yields_nil : yields ([] : History α κ W) = [] := rfl

theorem Spec.selections_single (e : Entry α κ W) : selections [e] = e.ev.add?.toList := by
  simp only [selections, List.filterMap_cons, List.filterMap_nil]
  cases e.ev.add? <;> rfl

theorem Spec.yields_single (e : Entry α κ W) : yields [e] = e.ev.yield?.toList := by
  simp only [yields, List.filterMap_cons, List.filterMap_nil]
  cases e.ev.yield? <;> rfl

theorem Spec.currentPass_snoc (h : History α κ W) (e : Entry α κ W) :
    currentPass (h ++ [e]) = if e.ev = .passStart then [] else currentPass h ++ [e] := by
  unfold currentPass
  rw [afterLast_snoc]
  simp only [isPassStart, decide_eq_true_eq]

/-! ## The beginning of a run -/

/-- What the part of `run` before the loop achieves. -/
structure Started (a : RunArgs α κ W) (s0 s : Sys α κ W) : Prop where
  nodes : s.nodes = s0.nodes
  mode : s.mode = s0.mode
  graph : s.graph = s0.graph
  queue : s.queue = s0.queue
  world : s.world = s0.world
  defaultUnit : s.defaultUnit = s0.defaultUnit
  timestamps : s.timestamps = s0.timestamps
  topo : ∃ q, toposort s0.graph = .ok q
  conds : ∃ s1, s0.validateRunState = (s1, none) ∧ s.conds = s1.conds ∧ s.store = s1.store
  useable : Dict.get? s.countsUseable a.id = some (fun _ _ => 0)
  total : ∃ f, Dict.get? s.countsTotal a.id = some f ∧
    (∀ t n, t.val ≤ 2 → f t n = 0) ∧
    (∀ f0, Dict.get? s0.countsTotal a.id = some f0 → ∀ t n, 2 < t.val → f t n = f0 t n) ∧
    (∀ b f0, Dict.get? s0.countsTotal a.id = none → a.base = some b →
      Dict.get? s0.countsTotal b = some f0 → ∀ t n, 2 < t.val → f t n = f0 t n) ∧
    (Dict.get? s0.countsTotal a.id = none → a.base = none → ∀ t n, f t n = 0)
  list : ∃ l, Dict.get? s.execList a.id = some l ∧
    (∀ l0, Dict.get? s0.execList a.id = some l0 → l = l0) ∧
    (∀ b l0, Dict.get? s0.execList a.id = none → a.base = some b →
      Dict.get? s0.execList b = some l0 → l = l0) ∧
    (Dict.get? s0.execList a.id = none → a.base = none → l = [])
  clock : ∃ ab ai ae, s.clocks = Dict.set s0.clocks a.id
    { (s0.clock a.id) with time :=
      { (s0.clock a.id).time with absolute := ab, absolute_interval := ai, absolute_enabled := ae } }
  other : ∀ i, i ≠ a.id → Dict.get? s.countsTotal i = Dict.get? s0.countsTotal i ∧
    Dict.get? s.countsUseable i = Dict.get? s0.countsUseable i ∧
    Dict.get? s.execList i = Dict.get? s0.execList i


theorem resetF_le {ts t : TimeScale} {f : TimeScale → α → Nat} {n : α} (h : t.val ≤ ts.val) :
    resetF ts f t n = 0 := if_pos h

theorem resetF_gt {ts t : TimeScale} {f : TimeScale → α → Nat} {n : α} (h : ts.val < t.val) :
    resetF ts f t n = f t n := if_neg (by omega)

/-- How a dict looks after an id was initialised in it. -/
structure Inited {β : Type _} (id : Option κ) (base : Option (Option κ)) (zero : β)
    (d d' : Dict (Option κ) β) : Prop where
  value : ∃ f, Dict.get? d' id = some f ∧
    (∀ f0, Dict.get? d id = some f0 → f = f0) ∧
    (∀ b f0, Dict.get? d id = none → base = some b → Dict.get? d b = some f0 → f = f0) ∧
    (Dict.get? d id = none → base = none → f = zero)
  other : ∀ i, i ≠ id → Dict.get? d' i = Dict.get? d i

theorem Inited.keep {β : Type _} {id : Option κ} {base : Option (Option κ)} {zero : β}
    {d : Dict (Option κ) β} {f : β} (h : Dict.get? d id = some f) : Inited id base zero d d := by
  refine ⟨⟨f, h, ?_, ?_, ?_⟩, fun _ _ => rfl⟩
  · intro f0 h0; rw [h] at h0; injection h0
  · intro b f0 h0; rw [h] at h0; cases h0
  · intro h0; rw [h] at h0; cases h0

theorem Inited.fresh {β : Type _} {id : Option κ} {zero : β}
    {d : Dict (Option κ) β} (h : Dict.get? d id = none) :
    Inited id none zero d (Dict.set d id zero) := by
  refine ⟨⟨zero, by simp [Dict.get?_set], ?_, ?_, fun _ _ => rfl⟩, ?_⟩
  · intro f0 h0; rw [h] at h0; cases h0
  · intro b f0 _ h0; cases h0
  · intro i hi; rw [Dict.get?_set, if_neg (fun e => hi e.symm)]

theorem Inited.fork {β : Type _} {id b : Option κ} {zero f : β}
    {d : Dict (Option κ) β} (h : Dict.get? d id = none) (hb : Dict.get? d b = some f) :
    Inited id (some b) zero d (Dict.set d id f) := by
  refine ⟨⟨f, by simp [Dict.get?_set], ?_, ?_, ?_⟩, ?_⟩
  · intro f0 h0; rw [h] at h0; cases h0
  · intro b' f0 _ h1 h2; injection h1 with h1; subst h1; rw [hb] at h2; injection h2
  · intro _ h0; cases h0
  · intro i hi; rw [Dict.get?_set, if_neg (fun e => hi e.symm)]

namespace Sys

theorem initTotal_ok {s s' : Sys α κ W} {id base} (h : s.initTotal id base = .ok s') :
    ∃ d, s' = { s with countsTotal := d } ∧
      Inited id base (fun _ _ => 0) s.countsTotal d := by
  unfold initTotal at h
  cases h1 : Dict.get? s.countsTotal id with
  | some f => simp only [h1] at h; injection h with h; subst h; exact ⟨_, rfl, .keep h1⟩
  | none =>
    simp only [h1] at h
    cases base with
    | none => simp only at h; injection h with h; subst h; exact ⟨_, rfl, .fresh h1⟩
    | some b =>
      simp only at h
      cases h2 : Dict.get? s.countsTotal b with
      | none => simp only [h2] at h; cases h
      | some f =>
        simp only [h2] at h; injection h with h; subst h; exact ⟨_, rfl, .fork h1 h2⟩

theorem initUseable_ok {s s' : Sys α κ W} {id base} (h : s.initUseable id base = .ok s') :
    ∃ d, s' = { s with countsUseable := d } ∧
      Inited id base (fun _ _ => 0) s.countsUseable d := by
  unfold initUseable at h
  cases h1 : Dict.get? s.countsUseable id with
  | some f => simp only [h1] at h; injection h with h; subst h; exact ⟨_, rfl, .keep h1⟩
  | none =>
    simp only [h1] at h
    cases base with
    | none => simp only at h; injection h with h; subst h; exact ⟨_, rfl, .fresh h1⟩
    | some b =>
      simp only at h
      cases h2 : Dict.get? s.countsUseable b with
      | none => simp only [h2] at h; cases h
      | some f =>
        simp only [h2] at h; injection h with h; subst h; exact ⟨_, rfl, .fork h1 h2⟩

theorem initList_ok {s s' : Sys α κ W} {id base} (h : s.initList id base = .ok s') :
    ∃ d, s' = { s with execList := d } ∧ Inited id base [] s.execList d := by
  unfold initList at h
  cases h1 : Dict.get? s.execList id with
  | some f => simp only [h1] at h; injection h with h; subst h; exact ⟨_, rfl, .keep h1⟩
  | none =>
    simp only [h1] at h
    cases base with
    | none => simp only at h; injection h with h; subst h; exact ⟨_, rfl, .fresh h1⟩
    | some b =>
      simp only at h
      cases h2 : Dict.get? s.execList b with
      | none => simp only [h2] at h; cases h
      | some f =>
        simp only [h2] at h; injection h with h; subst h; exact ⟨_, rfl, .fork h1 h2⟩

theorem initClock_ok {s s' : Sys α κ W} {id base} (h : s.initClock id base = .ok s') :
    ∃ d, s' = { s with clocks := d } ∧ Inited id base Clock.new s.clocks d := by
  unfold initClock at h
  cases h1 : Dict.get? s.clocks id with
  | some f => simp only [h1] at h; injection h with h; subst h; exact ⟨_, rfl, .keep h1⟩
  | none =>
    simp only [h1] at h
    cases base with
    | none => simp only at h; injection h with h; subst h; exact ⟨_, rfl, .fresh h1⟩
    | some b =>
      simp only at h
      cases h2 : Dict.get? s.clocks b with
      | none => simp only [h2] at h; cases h
      | some f =>
        simp only [h2] at h; injection h with h; subst h; exact ⟨_, rfl, .fork h1 h2⟩

theorem initClock_keep {s : Sys α κ W} {id base c} (h : Dict.get? s.clocks id = some c) :
    s.initClock id base = .ok s := by
  unfold initClock; simp only [h]

theorem initCounts_ok {s s' : Sys α κ W} {id base} (h : s.initCounts id base = (s', none)) :
    ∃ dt du dl dc, s' = { s with countsTotal := dt, countsUseable := du, execList := dl, clocks := dc }
      ∧ Inited id base (fun _ _ => 0) s.countsTotal dt
      ∧ Inited id base (fun _ _ => 0) s.countsUseable du
      ∧ Inited id base [] s.execList dl
      ∧ (∀ c, Dict.get? s.clocks id = some c → dc = s.clocks) := by
  unfold initCounts at h
  cases h1 : s.initTotal id base with
  | error e => simp only [h1, Prod.mk.injEq] at h; exact absurd h.2 (by simp)
  | ok s1 =>
    simp only [h1] at h
    cases h2 : s1.initUseable id base with
    | error e => simp only [h2, Prod.mk.injEq] at h; exact absurd h.2 (by simp)
    | ok s2 =>
      simp only [h2] at h
      cases h3 : s2.initList id base with
      | error e => simp only [h3, Prod.mk.injEq] at h; exact absurd h.2 (by simp)
      | ok s3 =>
        simp only [h3] at h
        cases h4 : s3.initClock id base with
        | error e => simp only [h4, Prod.mk.injEq] at h; exact absurd h.2 (by simp)
        | ok s4 =>
          simp only [h4, Prod.mk.injEq, and_true] at h
          subst h
          obtain ⟨d1, e1, i1⟩ := initTotal_ok h1
          obtain ⟨d2, e2, i2⟩ := initUseable_ok h2
          obtain ⟨d3, e3, i3⟩ := initList_ok h3
          obtain ⟨d4, e4, i4⟩ := initClock_ok h4
          subst e1 e2 e3
          refine ⟨d1, d2, d3, d4, e4, i1, i2, i3, ?_⟩
          intro c hc
          let s3 : Sys α κ W := { s with countsTotal := d1, countsUseable := d2, execList := d3 }
          have h5 : s3.initClock id base = .ok s3 := initClock_keep hc
          have h6 : Except.ok s4 = (Except.ok _ : Except Err (Sys α κ W)) := h4.symm.trans h5
          injection h6 with h6
          rw [e4] at h6
          exact congrArg (fun s : Sys α κ W => s.clocks) h6

theorem validateConditions_frame : ∀ (ns : List α) (s s' : Sys α κ W) (r),
    validateConditions ns s = (s', r) → ∃ cs st, s' = { s with conds := cs, store := st } := by
  intro ns
  induction ns with
  | nil => intro s s' r h; simp only [validateConditions, Prod.mk.injEq] at h
           exact ⟨s.conds, s.store, h.1.symm⟩
  | cons n ns ih =>
    intro s s' r h
    unfold validateConditions at h
    cases h1 : Dict.get? s.conds n with
    | some c => simp only [h1] at h; exact ih s s' r h
    | none =>
      simp only [h1] at h
      cases h2 : Dict.get? s.graph n with
      | none =>
        simp only [h2, Prod.mk.injEq] at h; exact ⟨s.conds, s.store, h.1.symm⟩
      | some deps =>
        simp only [h2] at h
        obtain ⟨cs, st, e⟩ := ih _ _ _ h
        exact ⟨cs, st, e⟩

theorem validateRunState_ok {s s' : Sys α κ W} (h : s.validateRunState = (s', none)) :
    (∃ q, toposort s.graph = .ok q) ∧ ∃ cs st, s' = { s with conds := cs, store := st } := by
  unfold validateRunState at h
  cases h1 : toposort s.graph with
  | error e => simp only [h1, Prod.mk.injEq] at h; exact absurd h.2 (by simp)
  | ok q => simp only [h1] at h; exact ⟨⟨q, rfl⟩, validateConditions_frame _ _ _ _ h⟩

theorem getClock_clock (s : Sys α κ W) (id : Option κ) : (s.getClock id).clock id = s.clock id := by
  unfold getClock View.clock
  cases h : Dict.get? s.clocks id with
  | some c => simp only [h]
  | none => simp only [Dict.get?_set, if_true]

theorem getClock_frame (s : Sys α κ W) (id : Option κ) :
    ∃ d, s.getClock id = { s with clocks := d } ∧ ∀ c, Dict.set d id c = Dict.set s.clocks id c := by
  unfold getClock
  cases h : Dict.get? s.clocks id with
  | some c => exact ⟨s.clocks, rfl, fun _ => rfl⟩
  | none => exact ⟨_, rfl, fun c => Dict.set_set _ _ _ _⟩

theorem setupAbsolute_ok {s s' : Sys α κ W} {a : RunArgs α κ W} {abs : Bool}
    (h : s.setupAbsolute a = (s', .ok abs)) :
    ∃ ab ai ae, s' = s.setClock a.id { (s.clock a.id) with time :=
      { (s.clock a.id).time with absolute := ab, absolute_interval := ai, absolute_enabled := ae } } := by
  unfold setupAbsolute at h
  dsimp only at h
  split at h
  · simp only [Prod.mk.injEq] at h; exact ⟨_, _, _, h.1.symm⟩
  · split at h
    · simp at h
    · simp only [Prod.mk.injEq] at h; exact ⟨_, _, _, h.1.symm⟩

theorem start_ok {s0 s : Sys α κ W} {a : RunArgs α κ W} {abs : Bool}
    (h : s0.start a = (s, .ok abs)) : Started a s0 s := by
  unfold start at h
  rcases h1 : s0.validateRunState with ⟨s1, e1⟩
  cases e1 with
  | some e => simp only [h1, Prod.mk.injEq] at h; exact absurd h.2 (by simp)
  | none =>
    simp only [h1] at h
    rcases h2 : (s1.getClock a.id).setupAbsolute a with ⟨s2, e | abs2⟩
    · simp only [h2, Prod.mk.injEq] at h; exact absurd h.2 (by simp)
    · simp only [h2] at h
      rcases h3 : s2.initCounts a.id a.base with ⟨s3, e3⟩
      cases e3 with
      | some e => simp only [h3, Prod.mk.injEq] at h; exact absurd h.2 (by simp)
      | none =>
        simp only [h3] at h
        obtain ⟨dt, du, dl, dc, e3, it, iu, il, ic⟩ := initCounts_ok h3
        obtain ⟨ab, ai, ae, e2⟩ := setupAbsolute_ok h2
        obtain ⟨d, ed, hd⟩ := getClock_frame s1 a.id
        obtain ⟨⟨q, hq⟩, cs, st, e1⟩ := validateRunState_ok h1
        obtain ⟨f, hf, hf1, hf2, hf3⟩ := it.value
        obtain ⟨l, hl, hl1, hl2, hl3⟩ := il.value
        have hc1 : (s1.getClock a.id).clock a.id = s0.clock a.id := by
          rw [getClock_clock, e1]
        have hdc : dc = s2.clocks := by
          apply ic; rw [e2]; simp [setClock, Dict.get?_set]; rfl
        unfold resetTotal at h
        have hct : (s3.resetUseable a.id).countsTotal = dt := by rw [e3]; rfl
        rw [hct] at h
        simp only [hf, Prod.mk.injEq, Except.ok.injEq] at h
        obtain ⟨h, _⟩ := h
        rw [hc1] at e2
        have hs2 : s2 = { s0 with conds := cs, store := st, clocks := s2.clocks } := by
          rw [e2, ed, e1]; rfl
        have hck : s2.clocks = Dict.set s0.clocks a.id { (s0.clock a.id) with time :=
            { (s0.clock a.id).time with
              absolute := ab, absolute_interval := ai, absolute_enabled := ae } } := by
          rw [e2, ed]; show Dict.set d a.id _ = _
          rw [hd, e1]
        generalize s2.clocks = ck at hs2 hck hdc
        subst hs2 hdc
        subst e3
        have hs : s = { s0 with
            conds := cs, store := st, clocks := dc, execList := dl
            countsTotal := Dict.set dt a.id (resetF .environment_state_update f)
            countsUseable := Dict.set du a.id (fun _ _ => 0) } := h.symm
        subst hs
        exact {
          nodes := rfl, mode := rfl, graph := rfl, queue := rfl, world := rfl
          defaultUnit := rfl, timestamps := rfl
          topo := ⟨q, hq⟩
          conds := ⟨s1, h1, by rw [e1], by rw [e1]⟩
          useable := by simp [Dict.get?_set]
          total := by
            refine ⟨resetF .environment_state_update f, by simp [Dict.get?_set], ?_, ?_, ?_, ?_⟩
            · intro t n ht; exact resetF_le ht
            · intro f0 h0 t n ht
              rw [resetF_gt (show TimeScale.environment_state_update.val < t.val from ht)]
              rw [hf1 f0 h0]
            · intro b f0 h0 hb h1 t n ht
              rw [resetF_gt (show TimeScale.environment_state_update.val < t.val from ht)]
              rw [hf2 b f0 h0 hb h1]
            · intro h0 hb t n
              rw [hf3 h0 hb]; simp [resetF]
          list := ⟨l, hl, hl1, hl2, hl3⟩
          clock := ⟨ab, ai, ae, hck⟩
          other := by
            intro i hi
            refine ⟨?_, ?_, il.other i hi⟩
            · simp only [Dict.get?_set, if_neg (fun e => hi e.symm : ¬ a.id = i)]; exact it.other i hi
            · simp only [Dict.get?_set, if_neg (fun e => hi e.symm : ¬ a.id = i)]; exact iu.other i hi }

end Sys


/-! ## Frame of a step -/

/-- What a step of a run under `id` leaves alone. -/
structure Frame (id : Option κ) (s s' : Sys α κ W) : Prop where
  nodes : s'.nodes = s.nodes
  mode : s'.mode = s.mode
  graph : s'.graph = s.graph
  queue : s'.queue = s.queue
  world : s'.world = s.world
  conds : s'.conds = s.conds
  defaultUnit : s'.defaultUnit = s.defaultUnit
  store : StoreStep id s.store s'.store
  total : ∀ i, i ≠ id → Dict.get? s'.countsTotal i = Dict.get? s.countsTotal i
  useable : ∀ i, i ≠ id → Dict.get? s'.countsUseable i = Dict.get? s.countsUseable i
  list : ∀ i, i ≠ id → Dict.get? s'.execList i = Dict.get? s.execList i
  stamps : ∀ i, i ≠ id → Dict.get? s'.timestamps i = Dict.get? s.timestamps i
  clocks : ∀ i, i ≠ id → Dict.get? s'.clocks i = Dict.get? s.clocks i

theorem Frame.refl (id : Option κ) (s : Sys α κ W) : Frame id s s :=
  ⟨rfl, rfl, rfl, rfl, rfl, rfl, rfl, .refl _ _, fun _ _ => rfl, fun _ _ => rfl, fun _ _ => rfl,
    fun _ _ => rfl, fun _ _ => rfl⟩

theorem Frame.trans {id : Option κ} {s1 s2 s3 : Sys α κ W} (h : Frame id s1 s2)
    (k : Frame id s2 s3) : Frame id s1 s3 :=
  ⟨k.nodes.trans h.nodes, k.mode.trans h.mode, k.graph.trans h.graph, k.queue.trans h.queue,
    k.world.trans h.world, k.conds.trans h.conds, k.defaultUnit.trans h.defaultUnit,
    h.store.trans k.store,
    fun i hi => (k.total i hi).trans (h.total i hi), fun i hi => (k.useable i hi).trans (h.useable i hi),
    fun i hi => (k.list i hi).trans (h.list i hi), fun i hi => (k.stamps i hi).trans (h.stamps i hi),
    fun i hi => (k.clocks i hi).trans (h.clocks i hi)⟩

theorem Dict.get?_set_ne {κ' β : Type _} [DecidableEq κ'] {d : Dict κ' β} {k i : κ'} {v : β}
    (h : i ≠ k) : Dict.get? (Dict.set d k v) i = Dict.get? d i := by
  rw [Dict.get?_set, if_neg (fun e => h e.symm)]

theorem Dict.get?_set_self {κ' β : Type _} [DecidableEq κ'] (d : Dict κ' β) (k : κ') (v : β) :
    Dict.get? (Dict.set d k v) k = some v := by
  rw [Dict.get?_set, if_pos rfl]

theorem Frame.putStore {id : Option κ} {s : Sys α κ W} {st} (h : StoreStep id s.store st) :
    Frame id s (s.putStore st) := { Frame.refl id s with store := h }

theorem Frame.putTotal (id : Option κ) (s : Sys α κ W) (f) : Frame id s (s.putTotal id f) :=
  { Frame.refl id s with total := fun _ hi => Dict.get?_set_ne hi }

theorem Frame.putUseable (id : Option κ) (s : Sys α κ W) (f) : Frame id s (s.putUseable id f) :=
  { Frame.refl id s with useable := fun _ hi => Dict.get?_set_ne hi }

theorem Frame.putList (id : Option κ) (s : Sys α κ W) (f) : Frame id s (s.putList id f) :=
  { Frame.refl id s with list := fun _ hi => Dict.get?_set_ne hi }

theorem Frame.putStamps (id : Option κ) (s : Sys α κ W) (f) : Frame id s (s.putStamps id f) :=
  { Frame.refl id s with stamps := fun _ hi => Dict.get?_set_ne hi }

theorem Frame.setClock (id : Option κ) (s : Sys α κ W) (c) : Frame id s (s.setClock id c) :=
  { Frame.refl id s with clocks := fun _ hi => Dict.get?_set_ne hi }

theorem Going.store {s : Sys α κ W} {a : RunArgs α κ W} {st} (h : Going s a st) :
    StoreStep a.id s.store st := by
  obtain ⟨st1, h1, h2⟩ := h; exact (eval_store' h1).trans (eval_store' h2)

theorem Done.store {s : Sys α κ W} {a : RunArgs α κ W} {st} (h : Done s a st) :
    StoreStep a.id s.store st := by
  rcases h with h | ⟨st1, h1, h2⟩
  · exact eval_store' h
  · exact (eval_store' h1).trans (eval_store' h2)

theorem Leaves.store {s : Sys α κ W} {a : RunArgs α κ W} {idx st} (h : Leaves s a idx st) :
    StoreStep a.id s.store st := by
  rcases h with ⟨_, h⟩ | ⟨_, h⟩
  · rw [h]; exact .refl _ _
  · exact h.store

theorem StepR.frame {a : RunArgs α κ W} {abs : Bool} {s s' : Sys α κ W} {pc pc' ev}
    (h : StepR a abs s pc s' pc' ev) : Frame a.id s s' := by
  cases h with
  | pass hg hf => exact (Frame.putStore hg.store).trans (.putTotal _ _ _)
  | stopSkip hd hst hs => exact .putStore hst
  | stopIncr hd hst hs hc => exact (Frame.putStore hst).trans (.setClock _ _ _)
  | passEnd hl hch hc => exact (Frame.putStore hl.store).trans (.setClock _ _ _)
  | emptyYield hl ha hx => exact (Frame.putStore hl.store).trans (.putList _ _ _)
  | consider hq hg => exact .putStore hg.store
  | again => exact .refl _ _
  | skip => exact .refl _ _
  | reject ht hn hc he => exact .putStore (eval_store' he)
  | add ht hn hc he hf hu hm =>
    exact ((Frame.putStore (eval_store' he)).trans (.putTotal _ _ _)).trans (.putUseable _ _ _)
  | yield => exact .putList _ _ _
  | yieldAbs => exact (Frame.putList _ _ _).trans (.putStamps _ _ _)
  | silent => exact .refl _ _
  | resume => exact .setClock _ _ _
  | resumeEmpty => exact .setClock _ _ _
  | returned => exact .refl _ _
  | raised => exact .refl _ _
  | fails hp hfr hev =>
    cases hfr with
    | store st hst => exact .putStore hst
    | clock st c hst => exact (Frame.putStore hst).trans (.setClock _ _ _)
    | list l x => exact .putList _ _ _

/-- An attribute that no step changes and that the environment keeps has its initial
value throughout the run. -/
theorem Reach.keep {E : Sys α κ W → Sys α κ W → Prop} {a : RunArgs α κ W} {s0 : Sys α κ W}
    {abs h s pc} (f : Sys α κ W → β) (hr : Reach E a s0 abs h s pc) (hE : Keeps E f)
    (hf : ∀ s s' : Sys α κ W, Frame a.id s s' → f s' = f s)
    (h0 : ∀ s, Started a s0 s → f s = f s0) : f s = f s0 := by
  induction hr with
  | start hs => exact h0 _ (Sys.start_ok hs)
  | step _ hs ih => rw [hf _ _ (Sys.step_stepR hs).frame, ih]
  | env _ _ he ih => rw [hE _ _ he, ih]

theorem Reach.keepQueue {E : Sys α κ W → Sys α κ W → Prop} {a : RunArgs α κ W} {s0 : Sys α κ W}
    {abs h s pc} (hr : Reach E a s0 abs h s pc) (hE : Keeps E (fun s => s.queue)) :
    s.queue = s0.queue := hr.keep (fun s => s.queue) hE (fun _ _ f => f.queue) fun _ f => f.queue

theorem Reach.keepNodes {E : Sys α κ W → Sys α κ W → Prop} {a : RunArgs α κ W} {s0 : Sys α κ W}
    {abs h s pc} (hr : Reach E a s0 abs h s pc) (hE : Keeps E (fun s => s.nodes)) :
    s.nodes = s0.nodes := hr.keep (fun s => s.nodes) hE (fun _ _ f => f.nodes) fun _ f => f.nodes

end GS
