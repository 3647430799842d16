import Verif.Decided
import Verif.Spec.Values
import Verif.Props.CondTime
/-!
# C63, C65, C66: `WhenFinished...`, conditions for the start of a unit of time, and
conditions that are decided when the choice of a set begins
-/

set_option linter.unusedSectionVars false

namespace GS.Props
open Spec TimeScale
variable {α κ W : Type _} [DecidableEq α] [DecidableEq κ]
variable {E : Sys α κ W → Sys α κ W → Prop} {a : RunArgs α κ W} {s0 s : Sys α κ W}
variable {abs : Bool} {h : History α κ W} {pc : PC α}
variable {v : View α κ W} {id : Option κ} {st st' : Store α κ} {o : Nat}

/-! ## C66 -/

/-- C66: let a set be chosen from the consideration set `layer` (the choice begins with
`c0`), and let the condition of a node `n` of it be one that the selection of other nodes
of `layer` does not affect.  Then `n` is in the set exactly if its condition was satisfied
when the choice began; otherwise the condition was unsatisfied (it did not raise). -/
theorem C66_decided (hr : Reach E a s0 abs h s pc)
    (hT : Keeps E (fun s => Dict.get? s.countsTotal a.id))
    (hU : Keeps E (fun s => Dict.get? s.countsUseable a.id))
    (hL : Keeps E (fun s => Dict.get? s.execList a.id))
    {h1 h2 : History α κ W} {e : Entry α κ W}
    (hh : h = h1 ++ e :: h2) {i : Nat} {set : List α} {shown : Bool}
    (he : e.ev = .layer i set shown) :
    ∃ pre c0 es layer, h1 = pre ++ c0 :: es ∧ c0.ev = .consider i layer ∧
      (∀ x ∈ es, ∃ m, x.ev = .add m) ∧ (∀ n ∈ set, n ∈ layer) ∧
      ∀ n ∈ layer, ∀ cond, Dict.get? c0.after.conds n = some cond →
        Decided layer n c0.after.store.owner cond →
        (n ∈ set ↔ Evaluates c0.after a.id cond true) ∧
        (n ∉ set ↔ Evaluates c0.after a.id cond false) := by
  obtain ⟨c, hc, rfl, rfl, ht, hag, _, _⟩ := hr.layerEntry hh he
  obtain ⟨pre, c0, es, e1, b⟩ := hc.begun hT hU hL c rfl
  have ci := hc.choice c rfl
  refine ⟨pre, c0, es, c.layer, e1, b.ev, b.adds, ci.sub, fun n hn cond hcn hd => ?_⟩
  have hyes := fun hx => b.yes n hx cond hcn hd
  have hno : n ∉ c.exec → Evaluates c0.after a.id cond false := by
    intro hne
    rcases hc.fix c rfl hag c.layer (by simp [ht]) n hn with hf | ⟨cond', st, h1, h2, h3⟩
    · exact absurd hf hne
    · rw [b.conds, hcn] at h1; injection h1 with h1; subst h1
      unfold Evaluates
      rw [← (b.no n hn hne).eval (st' := st) (h2.owner.symm.trans b.owner) hd, h3]
  unfold Evaluates at hyes hno ⊢
  refine ⟨⟨hyes, fun hx => Classical.byContradiction fun hne => ?_⟩, hno, fun hx hin => ?_⟩
  · rw [hno hne] at hx; cases hx
  · rw [hyes hin] at hx; cases hx

/-! ## C63 -/

theorem isFinished_ok {d : α} {b : Bool} : isFinished v id d = .ok b ↔ Says v id b d := by
  unfold isFinished Says
  split <;> rename_i hx
  · rw [hx]; simp
  · rfl

theorem isFinished_error {d : α} {e : Err} :
    isFinished v id d = .error e ↔ Complains v id e d := by
  unfold isFinished Complains
  split <;> rename_i hx
  · rw [hx]
    constructor
    · intro he; injection he with he; exact .inr ⟨rfl, he.symm⟩
    · rintro (⟨h1, h2⟩ | ⟨_, rfl⟩)
      · injection h1 with h1; exact absurd h1.symm h2
      · rfl
  · constructor
    · intro he; exact .inl ⟨he, fun e' => hx (e' ▸ he)⟩
    · rintro (⟨h1, _⟩ | ⟨h1, _⟩)
      · exact h1
      · exact absurd h1 hx

/-- C63: `WhenFinished(d)` is satisfied iff `d` says that it is finished, and raises iff
`d` cannot be asked (`ConditionError`) or raises. -/
theorem C63_one {d : α} :
    (∀ b, (eval v id (.leaf o (.whenFinished d)) st).1 = .ok b ↔ Says v id b d) ∧
    ∀ e, (eval v id (.leaf o (.whenFinished d)) st).1 = .error e ↔ Complains v id e d :=
  ⟨fun _ => isFinished_ok, fun _ => isFinished_error⟩

theorem finishedAll_ok : ∀ ds : List α, finishedAll v id ds = .ok true ↔ ∀ d ∈ ds, Says v id true d
  | [] => by simp [finishedAll]
  | d :: ds => by
    have ih := finishedAll_ok ds
    unfold finishedAll
    rw [List.forall_mem_cons, ← ih, ← isFinished_ok]
    cases hd : isFinished v id d with
    | error e => simp
    | ok b => cases b <;> simp

theorem finishedAny_no : ∀ ds : List α, finishedAny v id ds = .ok false ↔ ∀ d ∈ ds, Says v id false d
  | [] => by simp [finishedAny]
  | d :: ds => by
    have ih := finishedAny_no ds
    unfold finishedAny
    rw [List.forall_mem_cons, ← ih, ← isFinished_ok]
    cases hd : isFinished v id d with
    | error e => simp
    | ok b => cases b <;> simp

/-- C63: `WhenFinishedAll(ds...)` is satisfied iff all the nodes it is about say that they
are finished, and `WhenFinishedAny(ds...)` is unsatisfied iff all of them say that they
are not. -/
theorem C63_many {ds : List α} :
    ((eval v id (.leaf o (.whenFinishedAll ds)) st).1 = .ok true ↔
      ∀ d ∈ Meant v.nodes ds, Says v id true d) ∧
    ((eval v id (.leaf o (.whenFinishedAny ds)) st).1 = .ok false ↔
      ∀ d ∈ Meant v.nodes ds, Says v id false d) :=
  ⟨finishedAll_ok _, finishedAny_no _⟩

/-- C63: what the documentation says.  `WhenFinishedAll(A, B, ...)` behaves in every state
exactly as `All(WhenFinished(A), WhenFinished(B), ...)`, and `WhenFinishedAny(A, B, ...)`
as `Any(WhenFinished(A), WhenFinished(B), ...)`: the same answer, and the same exception.
Without arguments they are about all nodes of the scheduler. -/
theorem C63_equivalent (ds : List α) (p : α → Nat) (o' : Nat) :
    eval v id (.leaf o (.whenFinishedAll ds)) st =
      eval v id (.all o' ((Meant v.nodes ds).map fun d => .leaf (p d) (.whenFinished d))) st ∧
    eval v id (.leaf o (.whenFinishedAny ds)) st =
      eval v id (.any o' ((Meant v.nodes ds).map fun d => .leaf (p d) (.whenFinished d))) st := by
  constructor
  · simp only [eval, evalLeaf]
    show (finishedAll v id (Meant v.nodes ds), st) = _
    generalize Meant v.nodes ds = l
    induction l with
    | nil => rfl
    | cons d l ih =>
      simp only [List.map_cons, evalAll, eval, evalLeaf, finishedAll]
      cases isFinished v id d with
      | error e => rfl
      | ok b => cases b
                · rfl
                · exact ih
  · simp only [eval, evalLeaf]
    show (finishedAny v id (Meant v.nodes ds), st) = _
    generalize Meant v.nodes ds = l
    induction l with
    | nil => rfl
    | cons d l ih =>
      simp only [List.map_cons, evalAny, eval, evalLeaf, finishedAny]
      cases isFinished v id d with
      | error e => rfl
      | ok b => cases b
                · exact ih
                · rfl

/-- C63 in a run: a node with `WhenFinishedAll(ds...)` (or `WhenFinishedAny(ds...)`) that is
in the consideration set from which a set is chosen is in that set exactly if, when the
choice begins, all (or: not none) of the nodes say that they are finished.  It does not
matter which nodes are selected before it. -/
theorem C63_in_run (hr : Reach E a s0 abs h s pc)
    (hT : Keeps E (fun s => Dict.get? s.countsTotal a.id))
    (hU : Keeps E (fun s => Dict.get? s.countsUseable a.id))
    (hL : Keeps E (fun s => Dict.get? s.execList a.id))
    {h1 h2 : History α κ W} {e : Entry α κ W}
    (hh : h = h1 ++ e :: h2) {i : Nat} {set : List α} {shown : Bool}
    (he : e.ev = .layer i set shown) :
    ∃ pre c0 es layer, h1 = pre ++ c0 :: es ∧ c0.ev = .consider i layer ∧
      (∀ x ∈ es, ∃ m, x.ev = .add m) ∧
      ∀ n ∈ layer, ∀ ds,
        (Dict.get? c0.after.conds n = some (.leaf o (.whenFinishedAll ds)) →
          (n ∈ set ↔ ∀ d ∈ Meant c0.after.nodes ds, Says c0.after.toView a.id true d)) ∧
        (Dict.get? c0.after.conds n = some (.leaf o (.whenFinishedAny ds)) →
          (n ∉ set ↔ ∀ d ∈ Meant c0.after.nodes ds, Says c0.after.toView a.id false d)) := by
  obtain ⟨pre, c0, es, layer, e1, e2, e3, _, e4⟩ := C66_decided hr hT hU hL hh he
  refine ⟨pre, c0, es, layer, e1, e2, e3, fun n hn ds => ⟨fun hcn => ?_, fun hcn => ?_⟩⟩
  · rw [(e4 n hn _ hcn trivial).1]
    exact C63_many.1
  · rw [(e4 n hn _ hcn trivial).2]
    exact C63_many.2

/-! ## C65 -/

theorem evalAll_two {k1 k2 : Leaf α κ W} {o o1 o2 : Nat} {b1 b2 : Bool}
    (h1 : eval v id (.leaf o1 k1) st = (.ok b1, st)) (h2 : eval v id (.leaf o2 k2) st = (.ok b2, st)) :
    eval v id (.all o [.leaf o1 k1, .leaf o2 k2]) st = (.ok (b1 && b2), st) := by
  unfold eval
  simp only [evalAll, h1]
  cases b1
  · rfl
  · simp only [h2]; cases b2 <;> rfl

/-- C65: for every history of the clock, the conditions are satisfied exactly
* `AtEnvironmentStateUpdateStart()`: before the first pass of the current environment state
  update is over;
* `AtEnvironmentStateUpdateNStart(n, ts)`: in addition, `n` environment state updates of the
  current unit `ts` are over;
* `AtEnvironmentSequenceStart()`: before the first environment state update of the current
  sequence is over;
* `AtEnvironmentSequenceNStart(n)`: in addition, `n` sequences are over. -/
theorem C65_starts {log : List TimeScale} (h : Shows (v.clock id) log) (n : Int) {ts : TimeScale}
    (hts : environment_state_update.val < ts.val) {o1 o2 : Nat} :
    eval v id (atEnvironmentStateUpdateStart o) st =
      (.ok (decide (elapsed log environment_state_update pass = 0)), st) ∧
    eval v id (atEnvironmentStateUpdateNStart o o1 o2 n ts) st =
      (.ok (decide (elapsed log environment_state_update pass = 0 ∧
        (elapsed log ts environment_state_update : Int) = n)), st) ∧
    eval v id (atEnvironmentSequenceStart o) st =
      (.ok (decide (elapsed log environment_sequence environment_state_update = 0)), st) ∧
    eval v id (atEnvironmentSequenceNStart o o1 o2 n) st =
      (.ok (decide (elapsed log environment_sequence environment_state_update = 0 ∧
        (log.count environment_sequence : Int) = n)), st) := by
  have p0 := fun o => (C22_passes (st := st) (o := o) h (ts := environment_state_update) (by decide) 0).1
  have e0 := fun o => (C22_environment_state_updates (st := st) (o := o) h
    (ts := environment_sequence) (by decide) 0).1
  have en := fun o => (C22_environment_state_updates (st := st) (o := o) h hts n).1
  have qn := fun o => (C22_environment_sequences (st := st) (o := o) h n).1
  refine ⟨?_, ?_, ?_, ?_⟩
  · unfold atEnvironmentStateUpdateStart
    rw [p0]; congr 2; exact decide_eq_decide.2 (by omega)
  · unfold atEnvironmentStateUpdateNStart
    rw [evalAll_two (p0 o1) (en o2), ← Bool.decide_and]
    congr 2; exact decide_eq_decide.2 (and_congr (by omega) Iff.rfl)
  · unfold atEnvironmentSequenceStart
    rw [e0]; congr 2; exact decide_eq_decide.2 (by omega)
  · unfold atEnvironmentSequenceNStart
    rw [evalAll_two (e0 o1) (qn o2), ← Bool.decide_and]
    congr 2; exact decide_eq_decide.2 (and_congr (by omega) Iff.rfl)

/-- C65 in a run: let `log0` be the history of the clock when the run begins.  A node with
one of the conditions is in the set chosen from its consideration set exactly
* `AtEnvironmentStateUpdateStart()`: in the first pass, if the run begins a new environment
  state update;
* `AtEnvironmentStateUpdateNStart(n)`: in the first pass, if the run begins the `n`-th
  environment state update (counted from 0) of the sequence;
* `AtEnvironmentSequenceStart()`: in every pass, if no environment state update of the
  sequence is over;
* `AtEnvironmentSequenceNStart(n)`: in every pass, if moreover this is the `n`-th
  sequence. -/
theorem C65_in_run (hr : Reach E a s0 abs h s pc)
    (hT : Keeps E (fun s => Dict.get? s.countsTotal a.id))
    (hU : Keeps E (fun s => Dict.get? s.countsUseable a.id))
    (hL : Keeps E (fun s => Dict.get? s.execList a.id))
    (hC : Keeps E (fun s => s.clock a.id)) {log0 : List TimeScale}
    (h0 : Shows (s0.clock a.id) log0)
    {h1 h2 : History α κ W} {e : Entry α κ W}
    (hh : h = h1 ++ e :: h2) {i : Nat} {set : List α} {shown : Bool}
    (he : e.ev = .layer i set shown) {o1 o2 : Nat} {k : Int} :
    ∃ pre c0 es layer, h1 = pre ++ c0 :: es ∧ c0.ev = .consider i layer ∧
      (∀ x ∈ es, ∃ m, x.ev = .add m) ∧ ∀ n ∈ layer,
      let firstPass := elapsed log0 environment_state_update pass +
        (h1.countP fun e => decide (e.ev = .passStart)) = 1
      (Dict.get? c0.after.conds n = some (atEnvironmentStateUpdateStart o) →
        (n ∈ set ↔ firstPass)) ∧
      (Dict.get? c0.after.conds n = some (atEnvironmentStateUpdateNStart o o1 o2 k) →
        (n ∈ set ↔ firstPass ∧
          (elapsed log0 environment_sequence environment_state_update : Int) = k)) ∧
      (Dict.get? c0.after.conds n = some (atEnvironmentSequenceStart o) →
        (n ∈ set ↔ elapsed log0 environment_sequence environment_state_update = 0)) ∧
      (Dict.get? c0.after.conds n = some (atEnvironmentSequenceNStart o o1 o2 k) →
        (n ∈ set ↔ elapsed log0 environment_sequence environment_state_update = 0 ∧
          (log0.count environment_sequence : Int) = k)) := by
  obtain ⟨pre, c0, es, layer, e1, e2, e3, _, e4⟩ := C66_decided hr hT hU hL hh he
  refine ⟨pre, c0, es, layer, e1, e2, e3, fun n hn => ?_⟩
  have hp : (h1.countP fun e => decide (e.ev = .passStart)) =
      ((pre ++ [c0]).countP fun e => decide (e.ev = .passStart)) := by
    have : es.countP (fun e => decide (e.ev = .passStart)) = 0 := by
      rw [List.countP_eq_zero]
      intro x hx
      obtain ⟨m, hm⟩ := e3 x hx
      simp [hm]
    rw [e1, List.append_cons, List.countP_append, this, Nat.add_zero]
  obtain ⟨p, p', _, hs, hr'⟩ := hr.entry pre c0 (es ++ e :: h2) (by rw [hh, e1]; simp)
  obtain ⟨c, rfl⟩ : ∃ c, p' = .choosing c := by
    have hst := Sys.step_stepR hs
    rw [e2] at hst
    generalize hev : (some (Event.consider i layer)) = ev at hst
    generalize c0.after = sa at hst
    cases hst with
    | consider => exact ⟨_, rfl⟩
    | fails _ _ hx => rcases hx with rfl | ⟨_, rfl, _⟩ <;> cases hev
    | _ => cases hev
  obtain ⟨log, hlog, l1, _, l3, l4⟩ := C22_in_run hr' hC h0
  have key := fun n' => C65_starts (st := c0.after.store) (o := o) (o1 := o1) (o2 := o2) hlog n'
    (ts := environment_sequence) (by decide)
  obtain ⟨k1, k2, k3, k4⟩ := key k
  have yes : ∀ {cond : Cond α κ W} {b : Bool}, Dict.get? c0.after.conds n = some cond →
      Decided layer n c0.after.store.owner cond →
      eval c0.after.toView a.id cond c0.after.store = (.ok b, c0.after.store) →
      (n ∈ set ↔ b = true) := by
    intro cond b hcn hd hev
    rw [(e4 n hn cond hcn hd).1]
    unfold Evaluates
    rw [hev]; simp
  rw [hp]
  rw [l3] at k2 k3 k4
  rw [l4] at k4
  refine ⟨fun hcn => ?_, fun hcn => ?_, fun hcn => ?_, fun hcn => ?_⟩
  · rw [yes hcn trivial k1, decide_eq_true_eq]; omega
  · rw [yes hcn ⟨trivial, trivial, trivial⟩ k2, decide_eq_true_eq]
    exact and_congr (by omega) Iff.rfl
  · rw [yes hcn trivial k3, decide_eq_true_eq]
  · rw [yes hcn ⟨trivial, trivial, trivial⟩ k4, decide_eq_true_eq]

/-! ## Concrete cases -/

/-- Nodes say that they are finished, except node 2, and node 5 has no `is_finished`. -/
def finWorld : World Nat Nat Unit :=
  { demoWorld with finished := fun d _ =>
      if d = 5 then .error .attributeError else .ok (decide (d ≠ 2)) }

/-- Graph `0 -> 1, 2, 3, 4`; node 1 waits until 0 and 3 are finished, node 2 until all nodes
are, node 3 runs at the start of an environment state update, node 4 after the first
consideration set execution of an even pass in which 0 just ran. -/
def fin : Sys Nat Nat Unit :=
  let s := (Sys.new [(1, [0]), (2, [0]), (3, [0]), (4, [0])] .standard none 1 finWorld).alloc 7
  let s := s.addBasic 1 (.leaf 0 (.whenFinishedAll [0, 3]))
  let s := s.addBasic 2 (.leaf 1 (.whenFinishedAll []))
  let s := s.addBasic 3 (atEnvironmentStateUpdateStart 2)
  s.addBasic 4 (.all 3 [.leaf 4 (.everyNPasses 2 .environment_state_update), .leaf 5 (.justRan 0),
    .not 6 (.leaf 7 (.everyNCalls 0 2))])

def finAfter (k : Nat) := runAfter fin demoArgs k

/-- The hypotheses of the theorems above are met: in the first pass nodes 1, 3 and 4 are
chosen from the second consideration set, in the second pass only 1. -/
example : Reach (fun _ _ => False) demoArgs fin false (finAfter 40).1 (finAfter 40).2.1
      (finAfter 40).2.2 ∧ yields (finAfter 40).1 = [[0], [1, 3, 4], [0], [1]] ∧
    Shows (fin.clock demoArgs.id) [] ∧
    (∃ h1 e h2, (finAfter 40).1 = h1 ++ e :: h2 ∧ e.ev = .layer 1 [1] true) ∧
    Decided [1, 2, 3, 4] 4 fin.store.owner (.all 3 [.leaf 4 (.everyNPasses 2 .environment_state_update),
      .leaf 5 (.justRan 0), .not 6 (.leaf 7 (.everyNCalls 0 2))] : Cond Nat Nat Unit) := by
  refine ⟨run_reach (by decide +kernel) _ 40, by decide +kernel, .new, ?_, trivial, trivial,
    ⟨by decide +kernel, by decide⟩, trivial⟩
  have h : Event.layer 1 [1] true ∈ (finAfter 40).1.map (fun e => e.ev) := by decide +kernel
  obtain ⟨e, he, hev⟩ := List.mem_map.1 h
  obtain ⟨h1, h2, hh⟩ := mem_split he
  exact ⟨h1, e, h2, hh, hev⟩

/-- A node without `is_finished` is reported as a `ConditionError`. -/
example : (eval fin.toView none (.leaf 0 (.whenFinishedAny [2, 5, 0])) fin.store).1 =
      .error .conditionError ∧
    (eval fin.toView none (.leaf 0 (.whenFinishedAny [2, 0, 5])) fin.store).1 = .ok true := by
  decide +kernel

end GS.Props
