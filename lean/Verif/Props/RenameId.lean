import Verif.RenameIdRun
import Verif.Props.Life
import Verif.Props.Order
/-!
# C108: the names of execution ids do not matter

Specification: `Verif/Spec/RenameId.lean`.
-/

set_option linter.unusedSectionVars false

namespace GS.Props
open Spec
variable {α κ μ W : Type _} [DecidableEq α] [DecidableEq κ] [DecidableEq μ]
variable {a : RunArgs α κ W} {abs : Bool} {s0 s : Sys α κ W} {pc : PC α} {h : History α κ W}
variable {w : List (List α) → World α κ W} {U : Sys α κ W → Sys α κ W → Prop}
variable {log : List (Option κ × Entry α κ W)} {gs : List (Gen α κ W)}

/-- C108: a scheduler created with the new name of the default id is the same scheduler. -/
theorem C108_new (r : IdRenaming κ μ) (g : Graph α) (mode : Mode) (id : Option κ) (unit : Rat)
    (x : World α κ W) :
    Sys.new g mode (r.to id) unit (reidWorld r x) = reidSys r (Sys.new g mode id unit x) :=
  new_reid r g mode id unit x

/-- C108: so is the result of adding a condition, of `get_clock`, of
`end_environment_sequence` and of deleting what is stored under an id. -/
theorem C108_user (r : IdRenaming κ μ) (s : Sys α κ W) (n : α) (c : Cond α κ W) (k : Nat)
    (i : Option κ) :
    ((reidSys r s).alloc k).addBasic n (reidCond r c) = reidSys r ((s.alloc k).addBasic n c) ∧
    (reidSys r s).getClock (r.to i) = reidSys r (s.getClock i) ∧
    (reidSys r s).deleteCounts (r.to i) = reidSys r (s.deleteCounts i) ∧
    (∀ t, s.endEnvironmentSequence i = .ok t →
      (reidSys r s).endEnvironmentSequence (r.to i) = .ok (reidSys r t)) := by
  refine ⟨?_, getClock_reid r s i, deleteCounts_reid r s i, ?_⟩
  · rw [alloc_reid, addBasic_reid]
  · intro t ht
    unfold Sys.endEnvironmentSequence at ht ⊢
    rw [incrClock_reid, ht]
    rfl

/-- C108: a run under the new id starts, or raises, as the run under the old id does. -/
theorem C108_start (r : IdRenaming κ μ) (s0 : Sys α κ W) (a : RunArgs α κ W) :
    ((reidSys r s0).start (reidArgs r a)).2 = (s0.start a).2 := by
  rw [start_reid]; rfl

theorem reidLog_snoc (r : IdRenaming κ μ) (log : List (Option κ × Entry α κ W)) (i : Option κ)
    (s s' : Sys α κ W) (ev : Option (Event α)) :
    reidLog r (log ++ ev.toList.map fun x => (i, ⟨s, x, s'⟩)) =
      reidLog r log ++ ev.toList.map fun x => (r.to i, ⟨reidSys r s, x, reidSys r s'⟩) := by
  unfold reidLog
  rw [List.map_append]
  cases ev <;> rfl

theorem life_reid (r : IdRenaming κ μ) (hl : Life U s0 log s gs) :
    Life (reidUser r U) (reidSys r s0) (reidLog r log) (reidSys r s) (gs.map (reidGen r)) := by
  induction hl with
  | init => exact .init
  | @start log s s' gs a abs _ hs ih =>
    rw [List.map_append]
    refine Life.start (a := reidArgs r a) ih ?_
    rw [start_reid, hs]; rfl
  | @startFails log s s' gs a e _ hs ih =>
    refine .startFails (a := reidArgs r a) ih (e := e) ?_
    rw [start_reid, hs]; rfl
  | @step log s s' gs k g pc' ev _ hg hs ih =>
    rw [reidLog_snoc, List.map_set]
    have hg' : (gs.map (reidGen r))[k]? = some (reidGen r g) := by
      rw [List.getElem?_map, hg]; rfl
    have k1 : (reidSys r s).step (reidGen r g).args (reidGen r g).abs (reidGen r g).pc =
        (reidSys r s', pc', ev) := by
      show (reidSys r s).step (reidArgs r g.args) g.abs g.pc = _
      rw [step_reid, hs]; rfl
    exact .step ih hg' k1
  | user _ hu ih =>
    refine .user ih ?_
    unfold reidUser
    rw [reidSys_back, reidSys_back]
    exact hu

theorem reidUser_back (r : IdRenaming κ μ) (U : Sys α κ W → Sys α κ W → Prop) :
    reidUser r.symm (reidUser r U) = U := by
  funext s t
  unfold reidUser
  show U (reidSys r.symm (reidSys r s)) (reidSys r.symm (reidSys r t)) = _
  rw [reidSys_back, reidSys_back]

/-- C108: whatever a scheduler does in its life (any number of runs under any ids, begun,
continued and abandoned in any interleaving, and anything the user does in between), the
scheduler does under the new ids; and it does nothing else. -/
theorem C108_life (r : IdRenaming κ μ) :
    (Life U s0 log s gs →
      Life (reidUser r U) (reidSys r s0) (reidLog r log) (reidSys r s) (gs.map (reidGen r))) ∧
    ∀ log' s' gs', Life (reidUser r U) (reidSys r s0) log' s' gs' →
      ∃ log s gs, Life U s0 log s gs ∧ log' = reidLog r log ∧ s' = reidSys r s ∧
        gs' = gs.map (reidGen r) := by
  refine ⟨life_reid r, fun log' s' gs' hl => ?_⟩
  have k := life_reid r.symm hl
  rw [reidUser_back, reidSys_back] at k
  refine ⟨_, _, _, k, (reidLog_back r.symm log').symm, (reidSys_back r.symm s').symm, ?_⟩
  rw [List.map_map]
  have : (reidGen r ∘ reidGen (α := α) (W := W) r.symm) = id := funext fun g => reidGen_back r.symm g
  rw [this, List.map_id]

/-- C108: what was done under the new name of an id is what was done under the id: the same
sets were yielded, and the stored counts, history and clock are the same. -/
theorem C108_under (r : IdRenaming κ μ) (i : Option κ) :
    yields (under (r.to i) (reidLog r log)) = yields (under i log) ∧
    Dict.get? (reidSys r s).execList (r.to i) = Dict.get? s.execList i ∧
    Dict.get? (reidSys r s).timestamps (r.to i) = Dict.get? s.timestamps i ∧
    Dict.get? (reidSys r s).countsTotal (r.to i) = Dict.get? s.countsTotal i ∧
    Dict.get? (reidSys r s).countsUseable (r.to i) = Dict.get? s.countsUseable i ∧
    Dict.get? (reidSys r s).clocks (r.to i) = Dict.get? s.clocks i := by
  refine ⟨?_, getList_reid r s i, getStamps_reid r s i, getTotal_reid r s i, getUseable_reid r s i,
    getClocks_reid r s i⟩
  unfold under yields reidLog
  induction log with
  | nil => rfl
  | cons p log ih =>
    simp only [List.map_cons, List.filterMap_cons, r.inj]
    by_cases hp : p.1 = i
    · simp only [if_pos hp, List.filterMap_cons, ih]
    · simp only [if_neg hp, ih]

/-! ## A run and its consumer -/

theorem reidHistory_yields (r : IdRenaming κ μ) (h : History α κ W) :
    yields (reidHistory r h) = yields h := by
  unfold yields reidHistory
  rw [List.filterMap_map]
  rfl

theorem reidHistory_snoc (r : IdRenaming κ μ) (h : History α κ W) (s s' : Sys α κ W)
    (ev : Option (Event α)) :
    reidHistory r (h ++ ev.toList.map fun x => ⟨s, x, s'⟩) =
      reidHistory r h ++ ev.toList.map fun x => ⟨reidSys r s, x, reidSys r s'⟩ := by
  unfold reidHistory
  rw [List.map_append]
  cases ev <;> rfl

theorem reid_resumed (r : IdRenaming κ μ) (w : List (List α) → World α κ W) (ys : List (List α))
    (s : Sys α κ W) (pc : PC α) :
    resumed (reidConsumer r w) ys (reidSys r s) pc = reidSys r (resumed w ys s pc) := by
  unfold resumed
  cases pc.suspended <;> rfl

/-- C108: a run goes on under the new id as under the old one, with every consumer. -/
theorem C108_run (r : IdRenaming κ μ) (hr : Scripted w a s0 abs h s pc) :
    Scripted (reidConsumer r w) (reidArgs r a) (reidSys r s0) abs (reidHistory r h) (reidSys r s) pc ∧
    yields (reidHistory r h) = yields h := by
  refine ⟨?_, reidHistory_yields r h⟩
  induction hr with
  | start hs =>
    refine .start ?_
    rw [start_reid, hs]; rfl
  | @step h s t pc pc' ev _ hs ih =>
    rw [reidHistory_snoc]
    have k := step_reid r (resumed w (yields h) s pc) a abs pc
    rw [hs] at k
    have e := reid_resumed r w (yields h) s pc
    rw [← e, ← reidHistory_yields r h] at k
    rw [← e, ← reidHistory_yields r h]
    exact .step ih k

/-! ## Another default id -/

theorem IdBlindFn.same {r : IdRenaming κ κ} {f : View α κ W → Option κ → Option α → Except Err Bool}
    (hf : IdBlindFn r f) : reidFunc r f = f := by
  funext v id o
  unfold reidFunc
  have := hf (reidView r.symm v) (r.back id) o
  rw [r.to_back] at this
  rw [← this, show reidView r (reidView r.symm v) = v from reidView_back r.symm v]

mutual
theorem idBlind_same (r : IdRenaming κ κ) : ∀ c : Cond α κ W, IdBlind r c → reidCond r c = c
  | .leaf o k, hc => by
    cases k with
    | func f => exact congrArg (fun f => Cond.leaf o (.func f)) (IdBlindFn.same hc)
    | _ => rfl
  | .whileNot o f, hc => congrArg (Cond.whileNot o) (IdBlindFn.same hc)
  | .all o cs, hc => congrArg (Cond.all o) (idBlindAll_same r cs hc)
  | .any o cs, hc => congrArg (Cond.any o) (idBlindAll_same r cs hc)
  | .not o c, hc => congrArg (Cond.not o) (idBlind_same r c hc)
  | .nwhen o c n, hc => congrArg (fun c => Cond.nwhen o c n) (idBlind_same r c hc)
theorem idBlindAll_same (r : IdRenaming κ κ) : ∀ cs : List (Cond α κ W),
    IdBlindAll r cs → reidConds r cs = cs
  | [], _ => rfl
  | c :: cs, hc => by
    unfold reidConds
    rw [idBlind_same r c hc.1, idBlindAll_same r cs hc.2]
end

theorem IdFree.same (r : IdRenaming κ κ) {x : World α κ W} (hx : IdFree x) : reidWorld r x = x := by
  unfold reidWorld
  have h1 : (fun n i => x.finished n (r.back i)) = x.finished := by
    funext n i; exact hx.finished _ _ _
  have h2 : (fun g n p i => x.getter g n p (r.back i)) = x.getter := by
    funext g n p i; exact hx.getter _ _ _ _ _
  rw [h1, h2]

theorem schedulerWith_reid {g : Graph α} {mode : Mode} {unit : Rat} {x : World α κ W} {k : Nat}
    (r : IdRenaming κ κ) (i : Option κ) (hx : IdFree x) : ∀ cs : List (α × Cond α κ W),
    (∀ p ∈ cs, IdBlind r p.2) →
    reidSys r (schedulerWith g mode unit x k cs i) = schedulerWith g mode unit x k cs (r.to i) := by
  intro cs hcs
  have key : ∀ (cs : List (α × Cond α κ W)) (s : Sys α κ W), (∀ p ∈ cs, IdBlind r p.2) →
      reidSys r (cs.foldl (fun s p => s.addBasic p.1 p.2) s) =
        cs.foldl (fun s p => s.addBasic p.1 p.2) (reidSys r s) := by
    intro cs
    induction cs with
    | nil => intro s _; rfl
    | cons p cs ih =>
      intro s hcs
      rw [List.foldl_cons, List.foldl_cons, ih _ fun q hq => hcs q (List.mem_cons_of_mem _ hq),
        ← addBasic_reid, idBlind_same r p.2 (hcs p List.mem_cons_self)]
  unfold schedulerWith
  rw [key cs _ hcs, ← alloc_reid, ← new_reid, IdFree.same r hx]

theorem schedulerWith_known {g : Graph α} {mode : Mode} {unit : Rat} {x : World α κ W} {k : Nat}
    (i : Option κ) (cs : List (α × Cond α κ W)) : Known i (schedulerWith g mode unit x k cs i) := by
  have key : ∀ (cs : List (α × Cond α κ W)) (s : Sys α κ W),
      (cs.foldl (fun s p => s.addBasic p.1 p.2) s).toView = s.toView := by
    intro cs
    induction cs with
    | nil => intro s; rfl
    | cons p cs ih => intro s; rw [List.foldl_cons, ih]; rfl
  have h : (schedulerWith g mode unit x k cs i).toView = (Sys.new g mode i unit x).toView :=
    (key cs _).trans rfl
  have e : ∀ {γ : Type _} (y : γ), (Dict.get? [(i, y)] i).isSome = true := by
    intro γ y; simp [Dict.get?_cons]
  exact ⟨by rw [h]; exact e _, by rw [h]; exact e _, by rw [h]; exact e _⟩

theorem step_base (s : Sys α κ W) (a : RunArgs α κ W) (b : Option (Option κ)) (abs : Bool) (pc : PC α) :
    s.step { a with base := b } abs pc = s.step a abs pc := rfl

theorem scripted_base (b : Option (Option κ)) (hk : Known a.id s0) (hr : Scripted w a s0 abs h s pc) :
    Scripted w { a with base := b } s0 abs h s pc := by
  induction hr with
  | start hs => exact .start ((C29_base_ignored hk b).2.trans hs)
  | step _ hs ih => exact .step ih hs

/-- C108: a scheduler that was created with another `default_execution_id` yields the same
sets when it is run under that id, provided that nodes and user functions answer alike under
all ids; this for any `base_execution_id`, and in particular if none is given. -/
theorem C108_default {g : Graph α} {mode : Mode} {unit : Rat} {x : World α κ W} {k : Nat}
    {cs : List (α × Cond α κ W)} (i : Option κ) (b : Option (Option κ)) (hx : IdFree x)
    (hw : ∀ ys, IdFree (w ys)) (hcs : ∀ p ∈ cs, IdBlind (swapNone i) p.2)
    (hesu : IdBlind (swapNone i) a.esu) (hseq : IdBlind (swapNone i) a.seq)
    (hoth : IdBlindAll (swapNone i) a.others)
    (hr : Scripted w { a with id := none } (schedulerWith g mode unit x k cs none) abs h s pc) :
    ∃ h' s', Scripted w { a with id := i, base := b } (schedulerWith g mode unit x k cs i) abs h' s' pc ∧
      yields h' = yields h ∧ Dict.get? s'.execList i = Dict.get? s.execList none := by
  have e0 : (swapNone i).to none = i := by simp [swapNone]
  obtain ⟨k1, k2⟩ := C108_run (swapNone i) hr
  have ew : reidConsumer (swapNone i) w = w := funext fun ys => IdFree.same _ (hw ys)
  rw [schedulerWith_reid _ none hx cs hcs, e0, ew] at k1
  have ea : reidArgs (swapNone i) { a with id := none } =
      { a with id := i, base := a.base.map (swapNone i).to } := by
    unfold reidArgs
    simp only [e0, idBlind_same _ _ hesu, idBlind_same _ _ hseq, idBlindAll_same _ _ hoth]
  rw [ea] at k1
  refine ⟨_, _, scripted_base b (schedulerWith_known i cs) k1, k2, ?_⟩
  have := getList_reid (swapNone i) s none
  rw [e0] at this
  exact this

/-! ## A concrete case -/

theorem demoWorld_free : IdFree demoWorld := ⟨fun _ _ _ => rfl, fun _ _ _ _ _ => rfl⟩

/-- The demo scheduler with `default_execution_id=7` yields what the demo scheduler yields. -/
example : ∃ h s, Scripted constWorld { demoArgs with id := some 7 }
      (schedulerWith [(1, [0]), (2, [0])] .standard 1 demoWorld 1
        [(2, .leaf 0 (.everyNCalls 0 2))] (some 7)) false h s .returned ∧
    yields h = [[0], [1], [0], [1, 2]] := by
  have k1 := scriptAfter_scripted (w := constWorld) (a := demoArgs) (s0 := demo) (abs := false)
    (by decide +kernel) 40
  have e : (scriptAfter constWorld demoArgs demo 40).2.2 = .returned := by decide +kernel
  rw [e] at k1
  obtain ⟨h', s', h1, h2, _⟩ := C108_default (a := demoArgs) (g := [(1, [0]), (2, [0])])
    (mode := .standard) (unit := 1) (x := demoWorld) (k := 1) (cs := [(2, .leaf 0 (.everyNCalls 0 2))])
    (some 7) demoArgs.base demoWorld_free (fun _ => demoWorld_free)
    (by intro p hp; simp only [List.mem_singleton] at hp; subst hp; trivial)
    trivial trivial trivial k1
  refine ⟨h', s', h1, h2.trans ?_⟩
  decide +kernel

/-- Two runs of the demo scheduler, under `None` and 7, begun one after the other and then one
step of the first; and the same under 3 and 7. -/
example : ∃ log s gs, Life (fun _ _ => False) demo log s gs ∧ log ≠ [] ∧
    gs.map (fun g => g.args.id) = [none, some 7] ∧
    ∃ log' s' gs', Life (reidUser (swapNone (some 3)) fun _ _ => False)
      (reidSys (swapNone (some 3)) demo) log' s' gs' ∧ log' ≠ [] ∧
      gs'.map (fun g => g.args.id) = [some 3, some 7] := by
  have h1 : demo.start demoArgs = ((demo.start demoArgs).1, .ok false) := Prod.ext rfl (by decide +kernel)
  have h2 : (demo.start demoArgs).1.start { demoArgs with id := some 7 } =
      (((demo.start demoArgs).1.start { demoArgs with id := some 7 }).1, .ok false) :=
    Prod.ext rfl (by decide +kernel)
  have h3 : ((demo.start demoArgs).1.start { demoArgs with id := some 7 }).1.step demoArgs false .outer =
      ((((demo.start demoArgs).1.start { demoArgs with id := some 7 }).1.step demoArgs false .outer).1,
        .inner 0 false, some .passStart) :=
    Prod.ext rfl (by decide +kernel)
  have hl := Life.step (k := 0) (Life.start (Life.start (U := fun _ _ => False) Life.init h1) h2) rfl h3
  exact ⟨_, _, _, hl, by simp, rfl, _, _, _, (C108_life (swapNone (some 3))).1 hl, by simp [reidLog],
    rfl⟩

end GS.Props
