import Verif.Together
import Verif.Props.Conditions
/-!
# C101: several schedulers in one program

Schedulers that have no condition object in common do not notice each other.
-/

set_option linter.unusedSectionVars false

namespace GS.Props
open Spec
variable {α κ W : Type _} [DecidableEq α] [DecidableEq κ] {ι : Type _} [DecidableEq ι]
variable {p : Prog ι α κ W} {xs ys : List (ι × Deed α κ W)} {i : ι}

/-- What can be observed of a scheduler and its generators: everything that has been seen,
all the data of the scheduler, where the generators are, and which nodes have conditions. -/
structure LooksLike (u v : Seat α κ W) : Prop where
  seen : u.seen = v.seen
  data : u.sys.toView = v.sys.toView
  gens : u.gens.map (fun g => (g.abs, g.pc)) = v.gens.map (fun g => (g.abs, g.pc))
  keys : u.sys.conds.map Prod.fst = v.sys.conds.map Prod.fst

/-- **C101.** In a program with any number of schedulers in which no two schedulers use the
same condition object, whatever is done with them in whatever order, each scheduler does
what it would do in a program in which nothing is done with the other ones. -/
theorem C101_undisturbed (h : NoneShared p xs) (i : ι) :
    LooksLike ((Prog.perform xs p).seat i) (p.alone i xs) := by
  obtain ⟨Q, ρ, P, k⟩ := Along.perform xs (Along.start h i)
  have hm := k.mirror
  refine ⟨hm.seen, hm.sys.view, ?_, ?_⟩
  · have hg := hm.gens
    have e : ((Prog.perform xs p).seat i |>.facing (Prog.perform xs p).store).gens =
      ((Prog.perform xs p).seat i).gens := rfl
    rw [e] at hg
    show _ = (Seat.acts (forSeat i xs) ((p.seat i).facing p.store)).gens.map _
    generalize ((Prog.perform xs p).seat i).gens = l at hg ⊢
    generalize (Seat.acts (forSeat i xs) ((p.seat i).facing p.store)).gens = l' at hg ⊢
    clear e
    induction hg with
    | nil => rfl
    | cons h _ ih => simp only [List.map_cons, ih, h.abs, h.pc]
  · have hg := hm.sys.conds
    have e : ((Prog.perform xs p).seat i |>.facing (Prog.perform xs p).store).sys.conds =
      ((Prog.perform xs p).seat i).sys.conds := rfl
    rw [e] at hg
    show _ = (Seat.acts (forSeat i xs) ((p.seat i).facing p.store)).sys.conds.map _
    generalize ((Prog.perform xs p).seat i).sys.conds = l at hg ⊢
    generalize (Seat.acts (forSeat i xs) ((p.seat i).facing p.store)).sys.conds = l' at hg ⊢
    clear e
    induction hg with
    | nil => rfl
    | cons h _ ih => simp only [List.map_cons, ih]

theorem mem_forSeat {x : Deed α κ W} : x ∈ forSeat i xs ↔ (i, x) ∈ xs := by
  unfold forSeat
  rw [List.mem_filterMap]
  constructor
  · rintro ⟨⟨j, y⟩, h1, h2⟩
    dsimp only at h2
    split at h2
    · cases h2; rename_i e; subst e; exact h1
    · cases h2
  · intro h; exact ⟨(i, x), h, by simp⟩

/-- **C101.** How the uses of different schedulers are interleaved does not matter. -/
theorem C101_interleaving (h : NoneShared p xs) (hxy : ∀ i, forSeat i ys = forSeat i xs) (i : ι) :
    LooksLike ((Prog.perform ys p).seat i) ((Prog.perform xs p).seat i) := by
  have hu : ∀ i o, Needs p ys i o → Needs p xs i o := by
    rintro i o (h | ⟨x, hx, ho⟩)
    · exact .inl h
    · refine .inr ⟨x, ?_, ho⟩
      rw [← mem_forSeat, ← hxy, mem_forSeat]; exact hx
  have h' : NoneShared p ys :=
    ⟨fun i j hij o k k' => h.apart i j hij o (hu i o k) (hu j o k'), fun i o k => h.exist i o (hu i o k)⟩
  have k1 := C101_undisturbed h i
  have k2 := C101_undisturbed h' i
  have e : p.alone i ys = p.alone i xs := by unfold Prog.alone; rw [hxy]
  rw [e] at k2
  exact ⟨k2.seen.trans k1.seen.symm, k2.data.trans k1.data.symm, k2.gens.trans k1.gens.symm,
    k2.keys.trans k1.keys.symm⟩

/-! ## Non-vacuity, and why the condition objects must be separateUse -/

/-- What the generators have selected for execution. -/
def picked (u : Seat α κ W) : List α :=
  u.seen.filterMap fun
    | .event _ e => e.add?
    | .failed _ => none

/-- The exception that ended the `k`-th generator. -/
def endedBy (u : Seat α κ W) (k : Nat) : Option Err :=
  match u.gens[k]? with
  | some ⟨_, _, .raised e⟩ => some e
  | _ => none

/-- A program with two schedulers, both with graph `0 -> 1`, and twenty condition objects. -/
def twoScheds : Prog Bool Nat Nat Unit where
  store := { owner := fun _ => none, sat := fun _ _ => 0, fresh := 20 }
  seat _ := { sys := Sys.new [(1, [0])] .standard none 1 demoWorld }

/-- `run()` for two passes, the termination conditions being the objects `o` and `o + 1`. -/
def passesTwo (o : Nat) : RunArgs Nat Nat Unit :=
  { id := none, esu := .leaf o (.afterNPasses 2 .environment_state_update), seq := .leaf (o + 1) .never }

/-- `k` steps of the first generator of a scheduler. -/
def stepsOf (i : Bool) (k : Nat) : List (Bool × Deed Nat Nat Unit) := List.replicate k (i, .next 0)

/-- Both schedulers give node 1 the condition `NWhen(Always, 1)`, one object each (the second
one after it has given node 1 another condition and removed it). -/
def separateUse : List (Bool × Deed Nat Nat Unit) :=
  [(true, .add 1 (.leaf 4 .never)), (true, .remove 1),
   (false, .add 1 (.nwhen 0 (.leaf 1 .always) 1)), (true, .add 1 (.nwhen 2 (.leaf 3 .always) 1)),
   (false, .run (passesTwo 10)), (true, .run (passesTwo 12))] ++
  ((stepsOf false 7 ++ stepsOf true 5) ++ (stepsOf false 40 ++ stepsOf true 40))

/-- Both schedulers give node 1 the same object, `NWhen(Always, 1)`. -/
def sharedUse : List (Bool × Deed Nat Nat Unit) :=
  [(false, .add 1 (.nwhen 0 (.leaf 1 .always) 1)), (true, .add 1 (.nwhen 0 (.leaf 1 .always) 1)),
   (false, .run (passesTwo 10)), (true, .run (passesTwo 12))] ++
  ((stepsOf false 7 ++ stepsOf true 5) ++ (stepsOf false 40 ++ stepsOf true 40))

theorem uses_separateUse (i : Bool) (o : Nat) (h : Needs twoScheds separateUse i o) :
    o ∈ if i then [2, 3, 4, 12, 13] else [0, 1, 10, 11] := by
  rcases h with (⟨n, c, h, _⟩ | ⟨g, h, _⟩) | ⟨x, hx, ho⟩
  · cases h
  · cases h
  · rcases List.mem_append.mp hx with hx | hx
    · simp only [List.mem_cons, Prod.mk.injEq, List.not_mem_nil, or_false] at hx
      rcases hx with ⟨rfl, rfl⟩ | ⟨rfl, rfl⟩ | ⟨rfl, rfl⟩ | ⟨rfl, rfl⟩ | ⟨rfl, rfl⟩ | ⟨rfl, rfl⟩
      · have ho : o = 4 := ho
        subst ho; decide
      · exact ho.elim
      · rcases ho with ho | ho <;> (try have ho : o = 1 := ho) <;> subst ho <;> decide
      · rcases ho with ho | ho <;> (try have ho : o = 3 := ho) <;> subst ho <;> decide
      · rcases ho with ho | ho | ⟨c, hc, _⟩
        · have ho : o = 10 := ho
          subst ho; decide
        · have ho : o = 11 := ho
          subst ho; decide
        · cases hc
      · rcases ho with ho | ho | ⟨c, hc, _⟩
        · have ho : o = 12 := ho
          subst ho; decide
        · have ho : o = 13 := ho
          subst ho; decide
        · cases hc
    · exfalso
      simp only [stepsOf, List.mem_append, List.mem_replicate, Prod.mk.injEq] at hx
      rcases hx with (⟨_, _, rfl⟩ | ⟨_, _, rfl⟩) | ⟨_, _, rfl⟩ | ⟨_, _, rfl⟩ <;> exact ho

/-- Concrete case: the hypothesis of the theorems is met, and in both schedulers node 1
executes once. -/
example : NoneShared twoScheds separateUse ∧
    picked ((Prog.perform separateUse twoScheds).seat false) = [0, 1, 0] ∧
    picked ((Prog.perform separateUse twoScheds).seat true) = [0, 1, 0] := by
  refine ⟨⟨?_, ?_⟩, by decide +kernel, by decide +kernel⟩
  · intro i j hij o h1 h2
    have k1 := uses_separateUse i o h1
    have k2 := uses_separateUse j o h2
    cases i <;> cases j <;> simp at hij k1 k2 <;> omega
  · intro i o h
    have k := uses_separateUse i o h
    show o < 20
    cases i <;> simp at k <;> omega

/-- **C101.** Without that proviso it is not so: schedulers that have an `NWhen` object in
common use up each other's quota. Node 1 of the second scheduler never executes, although
it would if nothing were done with the first one. -/
theorem C101_shared_quota :
    picked ((Prog.perform sharedUse twoScheds).seat false) = [0, 1, 0] ∧
    picked ((Prog.perform sharedUse twoScheds).seat true) = [0, 0] ∧
    picked (twoScheds.alone true sharedUse) = [0, 1, 0] := by
  decide +kernel

/-- The object 0, `EveryNCalls(0, 1)`, is given to node 1 of one scheduler and then to node
7 of the other. -/
def lentUse : List (Bool × Deed Nat Nat Unit) :=
  [(false, .add 1 (.leaf 0 (.everyNCalls 0 1))), (true, .add 7 (.leaf 0 (.everyNCalls 0 1))),
   (false, .run (passesTwo 10))] ++ stepsOf false 40

/-- **C101.** Giving a condition object that one scheduler uses to another scheduler makes
runs of the first one fail: the condition has only one owner. -/
theorem C101_shared_owner :
    endedBy ((Prog.perform lentUse twoScheds).seat false) 0 = some .keyError ∧
    endedBy (twoScheds.alone false lentUse) 0 = none ∧
    picked (twoScheds.alone false lentUse) = [0, 1, 0, 1] := by
  decide +kernel

end GS.Props
