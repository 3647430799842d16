import Verif.TempoRun
import Verif.Props.Absolute
import Verif.Props.Order
/-!
# C104: the same at another speed
-/

set_option linter.unusedSectionVars false

namespace GS.Props
open Spec
variable {α κ W : Type _} [DecidableEq α] [DecidableEq κ]
variable {k : Rat} {a a' : RunArgs α κ W} {abs : Bool} {s s' s0 s0' : Sys α κ W}
  {h h' : History α κ W} {pc : PC α} {w : List (List α) → World α κ W}

/-- C104: `run` begins in the same way, or raises the same exception. -/
theorem C104_start (hk : 0 < k) (h0 : SysTempo k s0 s0') (ha : ArgsTempo k a a') :
    (s0'.start a').2 = (s0.start a).2 ∧ SysTempo k (s0.start a).1 (s0'.start a').1 :=
  h0.start hk ha

/-- C104: if all durations are `k` times as long, then with any consumer the run does the
same things in the same order, and at any moment the schedulers differ in absolute time
only; and that is all it does. -/
theorem C104_run (hk : 0 < k) (h0 : SysTempo k s0 s0') (ha : ArgsTempo k a a') (hn : NoneHidden s0 a) :
    (∀ h s pc, Scripted w a s0 abs h s pc → ∃ h' s', Scripted w a' s0' abs h' s' pc ∧
      Listwise (EntryTempo k) h h' ∧ SysTempo k s s') ∧
    ∀ h' s' pc, Scripted w a' s0' abs h' s' pc → ∃ h s, Scripted w a s0 abs h s pc ∧
      Listwise (EntryTempo k) h h' ∧ SysTempo k s s' :=
  ⟨fun _ _ _ => tempo_forward hk h0 ha hn, fun _ _ _ => tempo_backward hk h0 ha hn⟩

theorem timedSets_tempo (id : Option κ) (he : Listwise (EntryTempo k) h h') :
    timedSets id h' = (timedSets id h).map fun y => (y.1, y.2.1, k * y.2.2) := by
  induction he with
  | nil => rfl
  | @cons e e' l l' x _ ih =>
    have hc : (e'.before.clock id).time.absolute = k * (e.before.clock id).time.absolute :=
      (x.before.view.clock id).time.absolute
    have hx : timedSet? id e' = (timedSet? id e).map fun y => (y.1, y.2.1, k * y.2.2) := by
      unfold timedSet?
      rw [x.ev, hc]
      split <;> rfl
    unfold timedSets at ih ⊢
    rw [List.filterMap_cons, List.filterMap_cons, hx]
    cases timedSet? id e with
    | none => exact ih
    | some y => simp only [Option.map_some, List.map_cons]; rw [ih]

/-- C104: the same sets are yielded, at `k` times the absolute times. -/
theorem C104_yields (hk : 0 < k) (h0 : SysTempo k s0 s0') (ha : ArgsTempo k a a') (hn : NoneHidden s0 a)
    (hr : Scripted w a s0 abs h s pc) :
    ∃ h' s', Scripted w a' s0' abs h' s' pc ∧ yields h' = yields h ∧
      timedSets a.id h' = (timedSets a.id h).map (fun y => (y.1, y.2.1, k * y.2.2)) ∧
      ∀ n, execTimes a.id n h' = (execTimes a.id n h).map (k * ·) := by
  obtain ⟨h', s', k1, k2, _⟩ := tempo_forward hk h0 ha hn hr
  have e := timedSets_tempo a.id k2
  refine ⟨h', s', k1, yields_of_events (Listwise_entry k2), e, fun n => ?_⟩
  unfold execTimes
  rw [e, List.filterMap_map, List.map_filterMap]
  congr 1
  funext y
  simp only [Function.comp]
  split <;> rfl

/-- C104: new schedulers with `default_absolute_time_unit` `u` and `k u` are the same at
another speed, and stay so when conditions that differ in durations only are added. -/
theorem C104_build (g : Graph α) (m : Mode) (id : Option κ) (u : Rat) (w : World α κ W) :
    SysTempo k (Sys.new g m id u w) (Sys.new g m id (k * u) w) ∧
    (SysTempo k s s' → ∀ j, SysTempo k (s.alloc j) (s'.alloc j)) ∧
    ∀ n c c', SysTempo k s s' → CondTempo k c c' → SysTempo k (s.addBasic n c) (s'.addBasic n c') := by
  refine ⟨⟨⟨rfl, rfl, rfl, rfl, rfl, rfl, rfl, rfl, .cons .nil .nil, .cons .new .nil⟩, .nil, rfl, rfl⟩,
    fun h j => ?_, fun n c c' h hc => ?_⟩
  · refine ⟨h.view, h.conds, ?_, h.defaultUnit⟩
    unfold Sys.alloc; rw [h.store]
  · refine ⟨h.view, h.conds.set n hc, ?_, h.defaultUnit⟩
    show setOwner _ _ _ = setOwner _ _ _
    rw [h.store, setOwner_tempo _ hc]

/-! ## A concrete case -/

/-- `ticking` at a fifth of the speed, with the durations written in other units: nodes 0 and
1 execute every 10 and 15 time units. -/
def slowTicking : Sys Nat Nat Unit :=
  (((Sys.new [(1, [0])] .standard none 5 demoWorld).alloc 2).addBasic 0
    (.leaf 0 (.timeInterval (some ⟨1, 1⟩) none none true true))).addBasic 1
    (.leaf 1 (.timeInterval (some ⟨15, 0⟩) none none true true))

/-- A run of it until time 60. -/
def untilSixty : RunArgs Nat Nat Unit :=
  { id := none, esu := .leaf 10 (.timeTermination ⟨6, 1⟩ true), seq := .leaf 11 .never }

theorem slowTicking_tempo : SysTempo 5 ticking slowTicking := by
  have b := fun s s' => @C104_build Nat Nat Unit _ _ 5 s s' [(1, [0])] .standard none 1 demoWorld
  rw [show (5 : Rat) * 1 = 5 by decide +kernel] at b
  refine (b _ _).2.2 _ _ _ ((b _ _).2.2 _ _ _ ((b _ _).2.1 (b ticking ticking).1 2) ?_) ?_
  · exact .leaf _ (.timeInterval _ _ (.some (by unfold QtyTempo; decide +kernel)) .none .none)
  · exact .leaf _ (.timeInterval _ _ (.some (by unfold QtyTempo; decide +kernel)) .none .none)

theorem untilSixty_tempo : ArgsTempo 5 untilTwelve untilSixty :=
  ⟨rfl, rfl, rfl, .leaf _ (.timeTermination _ (by unfold QtyTempo; decide +kernel)), .leaf _ (.same trivial), .nil⟩

theorem ticking_noneHidden : NoneHidden ticking untilTwelve := by
  rintro c (rfl | rfl | ⟨n, hn⟩) hr
  · rfl
  · cases hr
  · have hn : (n, c) ∈ [((0 : Nat), (Cond.leaf 0 (.timeInterval (some ⟨2, 0⟩) none none true true) : Cond Nat Nat Unit)),
        (1, .leaf 1 (.timeInterval (some ⟨3, 0⟩) none none true true))] := hn
    simp only [List.mem_cons, List.not_mem_nil, or_false, Prod.mk.injEq] at hn
    rcases hn with ⟨_, rfl⟩ | ⟨_, rfl⟩ <;> rfl

/-- Node 1 of `ticking` executes at 1/2, 7/2, 13/2 and 19/2. -/
example : ∃ h s, Scripted constWorld untilSixty slowTicking true h s .returned ∧
    execTimes none 1 h = [5 / 2, 35 / 2, 65 / 2, 95 / 2] := by
  have k1 := scriptAfter_scripted (w := constWorld) (a := untilTwelve) (s0 := ticking) (abs := true)
    (by decide +kernel) 150
  have e : (scriptAfter constWorld untilTwelve ticking 150).2.2 = .returned := by decide +kernel
  rw [e] at k1
  obtain ⟨h', s', h1, _, _, h2⟩ := C104_yields (by decide +kernel) slowTicking_tempo untilSixty_tempo ticking_noneHidden k1
  refine ⟨h', s', h1, (h2 1).trans ?_⟩
  decide +kernel

/-! ## What is not seen -/

/-- A run of one pass. -/
def onePassArgs : RunArgs Nat Nat Unit :=
  { id := none, esu := .leaf 10 (.afterNPasses 1 .environment_state_update), seq := .leaf 11 .never }

/-- Graph `0 -> 1`; node 1 has the condition `Not(TimeInterval(repeat=r))`. -/
def hideaway (r : Qty) (u : Rat) : Sys Nat Nat Unit :=
  ((Sys.new [(1, [0])] .standard none u demoWorld).alloc 2).addBasic 1
    (.not 0 (.leaf 1 (.timeInterval (some r) none none true true)))

/-- C104: without the proviso it is not so. In a run without absolute time, the
`TimeInterval` in `Not` supposes that a consideration set execution takes 1 ms. So node 1
executes with `repeat=2` and not with `repeat=1`. -/
theorem C104_hidden : ∃ a : RunArgs Nat Nat Unit, ArgsTempo 2 a a ∧ SysTempo 2 (hideaway ⟨1, 0⟩ 1) (hideaway ⟨2, 0⟩ 2) ∧
    ∃ h s h' s' pc, Scripted constWorld a (hideaway ⟨1, 0⟩ 1) false h s pc ∧ yields h = [[0]] ∧
      Scripted constWorld a (hideaway ⟨2, 0⟩ 2) false h' s' pc ∧ yields h' = [[0], [1]] := by
  refine ⟨onePassArgs,
    ⟨rfl, rfl, rfl, .leaf _ (.same trivial), .leaf _ (.same trivial), .nil⟩, ?_, ?_⟩
  · have b := fun s s' => @C104_build Nat Nat Unit _ _ 2 s s' [(1, [0])] .standard none 1 demoWorld
    rw [show (2 : Rat) * 1 = 2 by decide +kernel] at b
    refine (b _ _).2.2 _ _ _ ((b _ _).2.1 (b ticking ticking).1 2) ?_
    exact .not _ (.leaf _ (.timeInterval _ _ (.some (by unfold QtyTempo; decide +kernel)) .none .none))
  · have k1 := scriptAfter_scripted (w := constWorld) (a := onePassArgs)
      (s0 := hideaway ⟨1, 0⟩ 1) (abs := false) (by decide +kernel) 40
    have k2 := scriptAfter_scripted (w := constWorld) (a := onePassArgs)
      (s0 := hideaway ⟨2, 0⟩ 2) (abs := false) (by decide +kernel) 40
    have e1 : (scriptAfter constWorld onePassArgs
      (hideaway ⟨1, 0⟩ 1) 40).2.2 = .returned := by decide +kernel
    have e2 : (scriptAfter constWorld onePassArgs
      (hideaway ⟨2, 0⟩ 2) 40).2.2 = .returned := by decide +kernel
    rw [e1] at k1
    rw [e2] at k2
    exact ⟨_, _, _, _, _, k1, by decide +kernel, k2, by decide +kernel⟩

end GS.Props
